import Verif.Yajl.Decode
import Verif.Yajl.Stream
/-! # What the parser accepts is in the grammar -/
namespace WG.Yajl
open WG.Json (Ev J JArr JObj)
open WG.Recs (Byte)

variable {strtod : List Byte → Option (BitVec 64)}

/-! ## The parser between two tokens -/

/-- Members read so far, with the comma after the last. -/
inductive Before (strtod : List Byte → Option (BitVec 64)) : List Byte → JObj → Prop
  | none : Before strtod [] .nil
  | some {t : List Byte} {m : JObj} : Members strtod t m → Before strtod (t ++ [0x2c#8]) m

/-- A value is expected in state `s`; `rest` are the states below. The bytes `txt` have been read, and `evs` are the calls made for them. -/
inductive Pre (strtod : List Byte → Option (BitVec 64)) : St → List St → List Ev → List Byte → Prop
  | top {g : List Byte} : Gap g → Pre strtod .start [] [] g
  | arr0 {s : St} {rest : List St} {evs : List Ev} {txt g : List Byte} : Pre strtod s rest evs txt → Gap g →
      Pre strtod .arrStart (gotVal s :: rest) (evs ++ [.startArr]) (txt ++ 0x5b#8 :: g)
  | arr {s : St} {rest : List St} {evs : List Ev} {txt t g : List Byte} {a : JArr} : Pre strtod s rest evs txt → Items strtod t a → Gap g →
      Pre strtod .arrNeedVal (gotVal s :: rest) (evs ++ .startArr :: a.events) (txt ++ 0x5b#8 :: t ++ 0x2c#8 :: g)
  | obj {s : St} {rest : List St} {evs : List Ev} {txt b g raw k g1 g2 : List Byte} {m : JObj} : Pre strtod s rest evs txt → Before strtod b m → Gap g → Body raw k → Gap g1 →
      Gap g2 → Pre strtod .mapNeedVal (gotVal s :: rest) (evs ++ .startMap :: m.events ++ [.key k]) (txt ++ 0x7b#8 :: b ++ g ++ 0x22#8 :: raw ++ 0x22#8 :: g1 ++ 0x3a#8 :: g2)

/-- The parser with stack `st` after the bytes `txt`, for which it has made the calls `evs`. -/
inductive Open (strtod : List Byte → Option (BitVec 64)) : List St → List Ev → List Byte → Prop
  | pre {s : St} {rest : List St} {evs : List Ev} {txt : List Byte} : Pre strtod s rest evs txt → Open strtod (s :: rest) evs txt
  | got {s : St} {rest : List St} {evs : List Ev} {txt t g : List Byte} {j : J} : Pre strtod s rest evs txt → Val strtod t j → Gap g →
      Open strtod (gotVal s :: rest) (evs ++ j.events) (txt ++ t ++ g)
  | mapStart {s : St} {rest : List St} {evs : List Ev} {txt g : List Byte} : Pre strtod s rest evs txt → Gap g →
      Open strtod (.mapStart :: gotVal s :: rest) (evs ++ [.startMap]) (txt ++ 0x7b#8 :: g)
  | mapKey {s : St} {rest : List St} {evs : List Ev} {txt t g : List Byte} {m : JObj} : Pre strtod s rest evs txt → Members strtod t m → Gap g →
      Open strtod (.mapNeedKey :: gotVal s :: rest) (evs ++ .startMap :: m.events) (txt ++ 0x7b#8 :: t ++ 0x2c#8 :: g)
  | mapSep {s : St} {rest : List St} {evs : List Ev} {txt b g raw k g1 : List Byte} {m : JObj} : Pre strtod s rest evs txt → Before strtod b m → Gap g → Body raw k → Gap g1 →
      Open strtod (.mapSep :: gotVal s :: rest) (evs ++ .startMap :: m.events ++ [.key k]) (txt ++ 0x7b#8 :: b ++ g ++ 0x22#8 :: raw ++ 0x22#8 :: g1)

theorem Pre.gap {s : St} {rest : List St} {evs : List Ev} {txt g : List Byte} (h : Pre strtod s rest evs txt) (hg : Gap g) : Pre strtod s rest evs (txt ++ g) := by
  cases h with
  | top h => exact .top (h.append hg)
  | arr0 h h1 => simpa using Pre.arr0 h (h1.append hg)
  | arr h h1 h2 => simpa using Pre.arr h h1 (h2.append hg)
  | obj h h1 h2 h3 h4 h5 => simpa using Pre.obj h h1 h2 h3 h4 (h5.append hg)

theorem Open.gap {st : List St} {evs : List Ev} {txt g : List Byte} (h : Open strtod st evs txt) (hg : Gap g) : Open strtod st evs (txt ++ g) := by
  cases h with
  | pre h => exact .pre (h.gap hg)
  | got h h1 h2 => simpa using Open.got h h1 (h2.append hg)
  | mapStart h h1 => simpa using Open.mapStart h (h1.append hg)
  | mapKey h h1 h2 => simpa using Open.mapKey h h1 (h2.append hg)
  | mapSep h h1 h2 h3 h4 => simpa using Open.mapSep h h1 h2 h3 (h4.append hg)

/-! ## One more element -/

theorem items_snoc {v g g' : List Byte} {j : J} (hg : Gap g) (hv : Val strtod v j) (hg' : Gap g') : ∀ {a : JArr} {t : List Byte}, Items strtod t a →
    ∃ a', Items strtod (t ++ 0x2c#8 :: g ++ v ++ g') a' ∧ a'.events = a.events ++ j.events
  | .nil, t, h => by cases h
  | .cons x a, t, h => by
    cases h with
    | one h1 h2 h3 => exact ⟨_, by simpa using Items.more h1 h2 h3 (.one hg hv hg'), by simp [JArr.events]⟩
    | more h1 h2 h3 h4 =>
      obtain ⟨a', e1, e2⟩ := items_snoc hg hv hg' h4
      exact ⟨_, by simpa using Items.more h1 h2 h3 e1, by simp [JArr.events, e2]⟩

theorem members_snoc {g raw k g1 g2 v g' : List Byte} {j : J} (hg : Gap g) (hk : Body raw k) (hg1 : Gap g1) (hg2 : Gap g2) (hv : Val strtod v j) (hg' : Gap g') :
    ∀ {m : JObj} {t : List Byte}, Members strtod t m →
    ∃ m', Members strtod (t ++ 0x2c#8 :: g ++ 0x22#8 :: raw ++ 0x22#8 :: g1 ++ 0x3a#8 :: g2 ++ v ++ g') m' ∧ m'.events = m.events ++ .key k :: j.events
  | .nil, t, h => by cases h
  | .cons x y m, t, h => by
    cases h with
    | one h1 h2 h3 h4 h5 h6 => exact ⟨_, by simpa using Members.more h1 h2 h3 h4 h5 h6 (.one hg hk hg1 hg2 hv hg'), by simp [JObj.events]⟩
    | more h1 h2 h3 h4 h5 h6 h7 =>
      obtain ⟨m', e1, e2⟩ := members_snoc hg hk hg1 hg2 hv hg' h7
      exact ⟨_, by simpa using Members.more h1 h2 h3 h4 h5 h6 e1, by simp [JObj.events, e2]⟩

theorem before_snoc {b g raw k g1 g2 v g' : List Byte} {j : J} {m : JObj} (hb : Before strtod b m) (hg : Gap g) (hk : Body raw k) (hg1 : Gap g1) (hg2 : Gap g2) (hv : Val strtod v j)
    (hg' : Gap g') : ∃ m', Members strtod (b ++ g ++ 0x22#8 :: raw ++ 0x22#8 :: g1 ++ 0x3a#8 :: g2 ++ v ++ g') m' ∧ m'.events = m.events ++ .key k :: j.events := by
  cases hb with
  | none => exact ⟨_, .one hg hk hg1 hg2 hv hg', by simp [JObj.events]⟩
  | some h =>
    obtain ⟨m', e1, e2⟩ := members_snoc hg hk hg1 hg2 hv hg' h
    exact ⟨m', by simpa using e1, e2⟩

/-! ## Tokens -/

theorem Paired.tail {a t : List Byte} (h : Paired (a ++ t)) : Paired t := by
  intro x h' b n e
  exact h (a ++ x) h' b n (by rw [e]; simp)

theorem lexBody_unique {e e' : Bool} {b : List Byte} (h : LexBody e b) (h' : LexBody e' b) : e = e' := by
  have h1 := strP_complete h false []
  rw [strP_complete h' false []] at h1
  cases e <;> cases e' <;> first | rfl | cases h1

theorem body_quotes {t : Tok} {b : List Byte} (h : t = .string ∨ t = .stringEsc) : body t (0x22#8 :: b ++ [0x22#8]) = b := by
  rw [body, if_pos h]
  simp

/-- A string: what the parser passes on. -/
theorem str_tok {e : Bool} {b r : List Byte} (h : LexBody e b) (hp : Paired (0x22#8 :: b ++ [0x22#8] ++ r)) : ∃ s, Body b s ∧ decode b = some s ∧ (e = false → s = b) := by
  obtain ⟨s, hs⟩ := body_of _ (Nat.le_refl _) h (b := r) (Paired.tail (a := [0x22#8]) (by simpa using hp))
  obtain ⟨h1, e', h2, h3⟩ := body_ok hs
  exact ⟨s, hs, h1, fun he => h3 (by rw [← lexBody_unique h h2, he])⟩

theorem single_iff {c : Byte} {t : Tok} (h : single c = some t) :
    (c = 0x7b#8 ∧ t = .lcurly) ∨ (c = 0x7d#8 ∧ t = .rcurly) ∨ (c = 0x5b#8 ∧ t = .lsquare) ∨ (c = 0x5d#8 ∧ t = .rsquare) ∨ (c = 0x2c#8 ∧ t = .comma) ∨ (c = 0x3a#8 ∧ t = .colon) := by
  unfold single at h
  split_ifs at h <;> simp_all

theorem onValue_cases {s : St} {rest : List St} {t : Tok} {raw r : List Byte} (ht : TokText t raw) (hp : Paired (raw ++ r)) :
    onValue strtod s rest t (body t raw) = some (.go none (.parseError :: rest)) ∨
    (∃ j ev, Val strtod raw j ∧ j.events = [ev] ∧ onValue strtod s rest t (body t raw) = some (.go (some ev) (gotVal s :: rest))) ∨
    (raw = [0x7b#8] ∧ onValue strtod s rest t (body t raw) = some (.go (some .startMap) (.mapStart :: gotVal s :: rest))) ∨
    (raw = [0x5b#8] ∧ onValue strtod s rest t (body t raw) = some (.go (some .startArr) (.arrStart :: gotVal s :: rest))) ∨
    (raw = [0x5d#8] ∧ s = .arrStart ∧ onValue strtod s rest t (body t raw) = some (.go (some .endArr) rest)) := by
  cases ht with
  | @single c t h =>
    rcases single_iff h with ⟨rfl, rfl⟩ | ⟨rfl, rfl⟩ | ⟨rfl, rfl⟩ | ⟨rfl, rfl⟩ | ⟨rfl, rfl⟩ | ⟨rfl, rfl⟩
    · exact Or.inr (Or.inr (Or.inl ⟨rfl, rfl⟩))
    · exact Or.inl rfl
    · exact Or.inr (Or.inr (Or.inr (Or.inl ⟨rfl, rfl⟩)))
    · by_cases hs : s = .arrStart
      · exact Or.inr (Or.inr (Or.inr (Or.inr ⟨rfl, hs, by rw [onValue, if_pos hs]⟩)))
      · exact Or.inl (by rw [onValue, if_neg hs])
    · exact Or.inl rfl
    · exact Or.inl rfl
  | null => exact Or.inr (Or.inl ⟨_, _, .null, rfl, rfl⟩)
  | tru => exact Or.inr (Or.inl ⟨_, _, .tru, rfl, rfl⟩)
  | fls => exact Or.inr (Or.inl ⟨_, _, .fls, rfl, rfl⟩)
  | @str b e h =>
    obtain ⟨v, h1, h2, h3⟩ := str_tok h hp
    refine Or.inr (Or.inl ⟨_, _, .str h1, rfl, ?_⟩)
    cases e with
    | false => simp only [Bool.false_eq_true, if_false]; rw [body_quotes (Or.inl rfl), h3 rfl]; rfl
    | true => simp only [if_true]; rw [body_quotes (Or.inr rfl), onValue, h2]; rfl
  | @num f raw h =>
    cases h with
    | @int sg l hs hl =>
      rw [show body (numTok false) (sg ++ l) = sg ++ l from rfl, show numTok false = .integer from rfl, onValue]
      rcases hs with rfl | rfl
      · rw [List.nil_append, parseInteger_nat hl]
        by_cases hv : decVal l < 2 ^ 63
        · rw [if_pos hv]; exact Or.inr (Or.inl ⟨_, _, .nat hl hv, rfl, rfl⟩)
        · rw [if_neg hv]; exact Or.inl rfl
      · rw [List.cons_append, List.nil_append, parseInteger_neg hl]
        by_cases hv : decVal l < 2 ^ 63
        · rw [if_pos hv]; exact Or.inr (Or.inl ⟨_, _, .neg hl hv, rfl, rfl⟩)
        · rw [if_neg hv]; exact Or.inl rfl
    | float h =>
      rw [show body (numTok true) raw = raw from rfl, show numTok true = .double from rfl, onValue]
      cases hv : strtod raw with
      | none => exact Or.inl rfl
      | some v => exact Or.inr (Or.inl ⟨_, _, .dbl h hv, rfl, rfl⟩)

theorem onKey_cases {s : St} {rest : List St} {t : Tok} {raw r : List Byte} (ht : TokText t raw) (hp : Paired (raw ++ r)) :
    onKey s rest t (body t raw) = some (.go none (.parseError :: rest)) ∨
    (∃ b k, raw = 0x22#8 :: b ++ [0x22#8] ∧ Body b k ∧ onKey s rest t (body t raw) = some (.go (some (.key k)) (.mapSep :: rest))) ∨
    (raw = [0x7d#8] ∧ s = .mapStart ∧ onKey s rest t (body t raw) = some (.go (some .endMap) rest)) := by
  cases ht with
  | @single c t h =>
    rcases single_iff h with ⟨rfl, rfl⟩ | ⟨rfl, rfl⟩ | ⟨rfl, rfl⟩ | ⟨rfl, rfl⟩ | ⟨rfl, rfl⟩ | ⟨rfl, rfl⟩
    · exact Or.inl rfl
    · by_cases hs : s = .mapStart
      · exact Or.inr (Or.inr ⟨rfl, hs, by rw [onKey, if_pos hs]⟩)
      · exact Or.inl (by rw [onKey, if_neg hs])
    all_goals exact Or.inl rfl
  | null => exact Or.inl rfl
  | tru => exact Or.inl rfl
  | fls => exact Or.inl rfl
  | @str b e h =>
    obtain ⟨v, h1, h2, h3⟩ := str_tok h hp
    refine Or.inr (Or.inl ⟨_, _, rfl, h1, ?_⟩)
    cases e with
    | false => simp only [Bool.false_eq_true, if_false]; rw [body_quotes (Or.inl rfl), h3 rfl]; rfl
    | true => simp only [if_true]; rw [body_quotes (Or.inr rfl), onKey, h2]; rfl
  | @num f raw h => cases f <;> exact Or.inl rfl

theorem onSep_cases {s : St} {rest : List St} {t : Tok} {raw : List Byte} (ht : TokText t raw) :
    onSep s rest t = some (.go none (.parseError :: rest)) ∨
    (raw = [0x3a#8] ∧ s = .mapSep ∧ onSep s rest t = some (.go none (.mapNeedVal :: rest))) ∨
    (raw = [0x2c#8] ∧ s = .mapGotVal ∧ onSep s rest t = some (.go none (.mapNeedKey :: rest))) ∨
    (raw = [0x2c#8] ∧ s = .arrGotVal ∧ onSep s rest t = some (.go none (.arrNeedVal :: rest))) ∨
    (raw = [0x7d#8] ∧ s = .mapGotVal ∧ onSep s rest t = some (.go (some .endMap) rest)) ∨
    (raw = [0x5d#8] ∧ s = .arrGotVal ∧ onSep s rest t = some (.go (some .endArr) rest)) := by
  cases ht with
  | @single c t h =>
    rcases single_iff h with ⟨rfl, rfl⟩ | ⟨rfl, rfl⟩ | ⟨rfl, rfl⟩ | ⟨rfl, rfl⟩ | ⟨rfl, rfl⟩ | ⟨rfl, rfl⟩ <;> cases s <;> simp [onSep]
  | str h => rename_i e; cases e <;> exact Or.inl rfl
  | @num f raw h => cases f <;> exact Or.inl rfl
  | _ => exact Or.inl rfl

/-! ## One step of the parser -/

theorem Pre.onTok {s : St} {rest : List St} {evs : List Ev} {txt : List Byte} (h : Pre strtod s rest evs txt) (t : Tok) (raw : List Byte) :
    onTok strtod s rest t raw = onValue strtod s rest t raw := by
  cases h <;> rfl

theorem arr_more {s : St} {rest : List St} {evs : List Ev} {txt t g : List Byte} {j : J} (h : Pre strtod s rest evs txt) (hs : gotVal s = .arrGotVal) (hv : Val strtod t j) (hg : Gap g) :
    ∃ s0 rest0 evs0 txt0 a tt, rest = gotVal s0 :: rest0 ∧ Pre strtod s0 rest0 evs0 txt0 ∧ Items strtod tt a ∧ evs ++ j.events = evs0 ++ .startArr :: a.events ∧
      txt ++ t ++ g = txt0 ++ 0x5b#8 :: tt := by
  cases h with
  | top => cases hs
  | @arr0 s0 rest0 evs0 txt0 g0 h h0 => exact ⟨_, _, _, _, _, _, rfl, h, .one h0 hv hg, by simp [JArr.events], by simp⟩
  | @arr s0 rest0 evs0 txt0 t0 g0 a h h0 h1 =>
    obtain ⟨a', e1, e2⟩ := items_snoc h1 hv hg h0
    exact ⟨_, _, _, _, _, _, rfl, h, e1, by simp [e2], by simp⟩
  | obj => cases hs

theorem obj_more {s : St} {rest : List St} {evs : List Ev} {txt t g : List Byte} {j : J} (h : Pre strtod s rest evs txt) (hs : gotVal s = .mapGotVal) (hv : Val strtod t j) (hg : Gap g) :
    ∃ s0 rest0 evs0 txt0 m tt, rest = gotVal s0 :: rest0 ∧ Pre strtod s0 rest0 evs0 txt0 ∧ Members strtod tt m ∧ evs ++ j.events = evs0 ++ .startMap :: m.events ∧
      txt ++ t ++ g = txt0 ++ 0x7b#8 :: tt := by
  cases h with
  | top => cases hs
  | arr0 => cases hs
  | arr => cases hs
  | @obj s0 rest0 evs0 txt0 b g0 raw k g1 g2 m h h0 h1 h2 h3 h4 =>
    obtain ⟨m', e1, e2⟩ := before_snoc h0 h1 h2 h3 h4 hv hg
    exact ⟨_, _, _, _, _, _, rfl, h, e1, by simp [e2], by simp⟩

/-- After a token the parser has failed, or is in the state for the text with the token. -/
theorem step {s : St} {rest : List St} {evs : List Ev} {txt g raw r : List Byte} {t : Tok} (ho : Open strtod (s :: rest) evs txt) (hg : Gap g) (ht : TokText t raw)
    (hp : Paired (raw ++ r)) : onTok strtod s rest t (body t raw) = some (.go none (.parseError :: rest)) ∨
    ∃ ev st', onTok strtod s rest t (body t raw) = some (.go ev st') ∧ Open strtod st' (evs ++ ev.toList) (txt ++ g ++ raw) := by
  generalize hst : s :: rest = st at ho
  cases ho with
  | @pre s' rest' evs txt h =>
    cases hst
    have h' := h.gap hg
    rw [h.onTok]
    rcases onValue_cases (strtod := strtod) (s := s) (rest := rest) ht hp with e | ⟨j, ev, e1, e2, e3⟩ | ⟨rfl, e⟩ | ⟨rfl, e⟩ | ⟨rfl, rfl, e⟩
    · exact Or.inl e
    · exact Or.inr ⟨_, _, e3, by simpa [e2] using Open.got h' e1 .nil⟩
    · exact Or.inr ⟨_, _, e, Open.mapStart h' .nil⟩
    · exact Or.inr ⟨_, _, e, .pre (Pre.arr0 h' .nil)⟩
    · cases h with
      | arr0 h h0 =>
        refine Or.inr ⟨_, _, e, ?_⟩
        simpa [J.events, JArr.events] using Open.got h (.arr0 (h0.append hg)) .nil
  | @got s' rest' evs txt t' g' j h hv hg' =>
    cases hst
    have hon : ∀ t raw, onTok strtod (gotVal s') rest t raw = onSep (gotVal s') rest t := by intro t raw; cases h <;> rfl
    rw [hon]
    rcases onSep_cases (s := gotVal s') (rest := rest) ht with e | ⟨rfl, e1, e⟩ | ⟨rfl, e1, e⟩ | ⟨rfl, e1, e⟩ | ⟨rfl, e1, e⟩ | ⟨rfl, e1, e⟩
    · exact Or.inl e
    · cases h <;> cases e1
    · obtain ⟨s0, rest0, evs0, txt0, m, tt, rfl, f1, f2, f3, f4⟩ := obj_more h e1 hv (hg'.append hg)
      refine Or.inr ⟨_, _, e, ?_⟩
      rw [f3, show txt ++ t' ++ g' ++ g ++ [0x2c#8] = txt ++ t' ++ (g' ++ g) ++ [0x2c#8] by simp, f4]
      simpa using Open.mapKey f1 f2 .nil
    · obtain ⟨s0, rest0, evs0, txt0, a, tt, rfl, f1, f2, f3, f4⟩ := arr_more h e1 hv (hg'.append hg)
      refine Or.inr ⟨_, _, e, .pre ?_⟩
      rw [f3, show txt ++ t' ++ g' ++ g ++ [0x2c#8] = txt ++ t' ++ (g' ++ g) ++ [0x2c#8] by simp, f4]
      simpa using Pre.arr f1 f2 .nil
    · obtain ⟨s0, rest0, evs0, txt0, m, tt, rfl, f1, f2, f3, f4⟩ := obj_more h e1 hv (hg'.append hg)
      refine Or.inr ⟨_, _, e, ?_⟩
      rw [f3, show txt ++ t' ++ g' ++ g ++ [0x7d#8] = txt ++ t' ++ (g' ++ g) ++ [0x7d#8] by simp, f4]
      simpa [J.events] using Open.got f1 (.obj f2) .nil
    · obtain ⟨s0, rest0, evs0, txt0, a, tt, rfl, f1, f2, f3, f4⟩ := arr_more h e1 hv (hg'.append hg)
      refine Or.inr ⟨_, _, e, ?_⟩
      rw [f3, show txt ++ t' ++ g' ++ g ++ [0x5d#8] = txt ++ t' ++ (g' ++ g) ++ [0x5d#8] by simp, f4]
      simpa [J.events] using Open.got f1 (.arr f2) .nil
  | mapStart h h1 =>
    cases hst
    rcases onKey_cases (s := .mapStart) ht hp with e | ⟨b, k, rfl, e1, e⟩ | ⟨rfl, -, e⟩
    · exact Or.inl e
    · exact Or.inr ⟨_, _, e, by simpa [JObj.events] using Open.mapSep h .none (h1.append hg) e1 .nil⟩
    · exact Or.inr ⟨_, _, e, by simpa [J.events, JObj.events] using Open.got h (.obj0 (h1.append hg)) .nil⟩
  | mapKey h h1 h2 =>
    cases hst
    rcases onKey_cases (s := .mapNeedKey) ht hp with e | ⟨b, k, rfl, e1, e⟩ | ⟨rfl, e1, e⟩
    · exact Or.inl e
    · exact Or.inr ⟨_, _, e, by simpa using Open.mapSep h (.some h1) (h2.append hg) e1 .nil⟩
    · cases e1
  | mapSep h h1 h2 h3 h4 =>
    cases hst
    rcases onSep_cases (s := .mapSep) ht with e | ⟨rfl, e1, e⟩ | ⟨rfl, e1, e⟩ | ⟨rfl, e1, e⟩ | ⟨rfl, e1, e⟩ | ⟨rfl, e1, e⟩
    · exact Or.inl e
    · exact Or.inr ⟨_, _, e, .pre (by simpa using Pre.obj h h1 h2 h3 (h4.append hg) .nil)⟩
    all_goals cases e1

/-! ## All tokens -/

theorem lexP_eof_sound : ∀ (n : Nat) {l : List Byte}, l.length ≤ n → ∀ {q : List Byte}, lexP l = .eof q → ∃ g, Gap g ∧ l = g ++ q := by
  intro n
  induction n with
  | zero =>
    intro l hn q h
    rw [List.length_eq_zero_iff.1 (Nat.le_zero.1 hn)] at h ⊢; rw [lexP_nil] at h; cases h; exact ⟨[], .nil, rfl⟩
  | succ n ih =>
    intro l hn q h
    induction l using lexP_cases with
    | hn => rw [lexP_nil] at h; cases h; exact ⟨[], .nil, rfl⟩
    | hs c t' l h' => rw [lexP_single h'] at h; cases h
    | hw c l hw =>
      rw [lexP_ws hw] at h
      obtain ⟨g, h1, h2⟩ := ih (by rw [List.length_cons] at hn; omega) h
      exact ⟨c :: g, .ws ((isWs_iff c).1 hw) h1, by rw [h2]; rfl⟩
    | hc l =>
      rw [lexP_com] at h
      rw [List.length_cons] at hn
      cases hc : comP l with
      | eof => rw [hc] at h; cases h; exact ⟨[], .nil, rfl⟩
      | err => rw [hc] at h; cases h
      | ok t' r' =>
        rw [hc] at h
        obtain ⟨g, h1, h2⟩ := ih (by have := comP_len hc; omega) h
        obtain ⟨a, h4, h5⟩ := comP_sound hc
        exact ⟨0x2f#8 :: a ++ g, h5.append h1, by rw [h4, h2]; simp⟩
    | hl c l h1 h2 h3 =>
      rw [lexP_long h1 h2 h3] at h
      cases hc : longP c l with
      | eof => rw [hc] at h; cases h; exact ⟨[], .nil, rfl⟩
      | err => rw [hc] at h; cases h
      | ok t' r' => rw [hc] at h; cases h

theorem Open.not_err {s : St} {rest : List St} {evs : List Ev} {txt : List Byte} (h : Open strtod (s :: rest) evs txt) : ¬ (s = .lexError ∨ s = .parseError) := by
  generalize hst : s :: rest = st at h
  cases h with
  | pre h => cases hst; cases h <;> decide
  | got h => cases hst; cases h <;> decide
  | _ => cases hst; decide

theorem run_sound : ∀ (n : Nat) {l : List Byte}, l.length ≤ n → Paired l → ∀ {st : List St} {evs : List Ev} {txt : List Byte}, Open strtod st evs txt →
    ∃ evs' r txt' st' q, run strtod st l = some (evs', r) ∧ l = txt' ++ q ∧ Open strtod st' (evs ++ evs') (txt ++ txt') ∧ ∀ st1 q1, r = .more st1 q1 → st1 = st' ∧ q1 = q ∧ Pend q := by
  intro n
  induction n with
  | zero =>
    intro l hn _ st evs txt ho
    obtain ⟨s, rest, rfl⟩ : ∃ s rest, st = s :: rest := by cases ho <;> exact ⟨_, _, rfl⟩
    rw [List.length_eq_zero_iff.1 (Nat.le_zero.1 hn)]
    refine ⟨[], .more (s :: rest) [], [], _, _, ?_, rfl, by simpa using ho, by rintro _ _ ⟨⟩; exact ⟨rfl, rfl, .nil⟩⟩
    by_cases h1 : s = .complete
    · subst h1; rw [run_complete, lexP_nil]
    · rw [run_tok h1 ho.not_err, lexP_nil]
  | succ n ih =>
    intro l hn hp st evs txt ho
    obtain ⟨s, rest, rfl⟩ : ∃ s rest, st = s :: rest := by cases ho <;> exact ⟨_, _, rfl⟩
    by_cases h1 : s = .complete
    · subst h1
      rw [run_complete]
      cases hl : lexP l with
      | eof q =>
        obtain ⟨g, e1, e2⟩ := lexP_eof_sound _ (Nat.le_refl _) hl
        exact ⟨_, _, g, _, q, rfl, e2, by simpa using ho.gap e1, by rintro _ _ ⟨⟩; exact ⟨rfl, rfl, (lexP_eof hl).1⟩⟩
      | err => exact ⟨_, _, [], _, l, rfl, rfl, by simpa using ho, by rintro _ _ ⟨⟩⟩
      | ok => exact ⟨_, _, [], _, l, rfl, rfl, by simpa using ho, by rintro _ _ ⟨⟩⟩
    · have h2 := ho.not_err
      rw [run_tok h1 h2]
      cases hl : lexP l with
      | eof q =>
        obtain ⟨g, e1, e2⟩ := lexP_eof_sound _ (Nat.le_refl _) hl
        exact ⟨_, _, g, _, q, rfl, e2, by simpa using ho.gap e1, by rintro _ _ ⟨⟩; exact ⟨rfl, rfl, (lexP_eof hl).1⟩⟩
      | err => exact ⟨_, _, [], _, l, rfl, rfl, by simpa using ho, by rintro _ _ ⟨⟩⟩
      | ok t raw r =>
        obtain ⟨g, e1, e2, e3⟩ := lexP_sound _ (Nat.le_refl _) hl
        have hr := (lexP_ok hl).1
        rw [e2, List.append_assoc] at hp
        dsimp only
        rcases step ho e1 e3 hp.tail with e | ⟨ev, st', e, ho'⟩
        · rw [e]
          dsimp only
          rw [run_bad (Or.inr rfl)]
          exact ⟨_, _, [], _, l, rfl, rfl, by simpa using ho, by rintro _ _ ⟨⟩⟩
        · rw [e]
          obtain ⟨evs', r', txt', st1, q, f1, f2, f3, f4⟩ := ih (by omega) hp.tail.tail ho'
          cases ev with
          | none =>
            refine ⟨evs', r', g ++ raw ++ txt', st1, q, f1, by rw [e2, f2]; simp, ?_, f4⟩
            simpa using f3
          | some ev =>
            dsimp only
            rw [f1]
            refine ⟨ev :: evs', r', g ++ raw ++ txt', st1, q, rfl, by rw [e2, f2]; simp, ?_, f4⟩
            simpa using f3

end WG.Yajl
