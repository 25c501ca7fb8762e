import Verif.Yajl.Whole
/-! # Every text of the grammar is accepted -/
namespace WG.Yajl
open WG.Json (Ev J JArr JObj)
open WG.Recs (Byte)

variable {strtod : List Byte → Option (BitVec 64)}

/-- The text goes on with a byte that ends a number. -/
def Stops (r : List Byte) : Prop := ∃ c r', r = c :: r' ∧ Stop c

/-- The states that expect a value. -/
def Wants (s : St) : Prop := s = .start ∨ s = .mapNeedVal ∨ s = .arrNeedVal ∨ s = .arrStart

theorem stops_cons {c : Byte} (h : Stop c) (r : List Byte) : Stops (c :: r) := ⟨c, r, rfl, h⟩

theorem stops_gap {g r : List Byte} (hg : Gap g) (hr : Stops r) : Stops (g ++ r) := by
  cases hg with
  | nil => exact hr
  | ws h _ =>
    refine stops_cons ?_ _
    simp only [List.mem_cons, List.not_mem_nil, or_false] at h
    rcases h with rfl | rfl | rfl | rfl | rfl | rfl <;> (unfold Stop; decide)
  | line => exact stops_cons (by unfold Stop; decide) _
  | block => exact stops_cons (by unfold Stop; decide) _

theorem run_gap {st : List St} {g : List Byte} (hg : Gap g) (l : List Byte) : run strtod st (g ++ l) = run strtod st l := by
  rcases st with _ | ⟨s, rest⟩
  · rw [run.eq_def, run.eq_def]
  · by_cases h1 : s = .complete
    · subst h1; rw [run_complete, run_complete, hg.lexP]
    · by_cases h2 : s = .lexError ∨ s = .parseError
      · rw [run_bad h2, run_bad h2]
      · rw [run_tok h1 h2, run_tok h1 h2, hg.lexP]

/-- One token. -/
theorem run_step {s : St} {rest st : List St} {t : Tok} {raw r : List Byte} {ev : Option Ev} (h1 : s ≠ .complete) (h2 : ¬ (s = .lexError ∨ s = .parseError)) (ht : TokText t raw)
    (hr : t = .integer ∨ t = .double → Stops r) (ho : onTok strtod s rest t (body t raw) = some (.go ev st)) :
    run strtod (s :: rest) (raw ++ r) = (run strtod st r).map fun y => (ev.toList ++ y.1, y.2) := by
  rw [run_tok h1 h2, lexP_complete ht r hr]
  dsimp only
  rw [ho]
  cases ev with
  | none => dsimp only; cases run strtod st r <;> rfl
  | some ev => dsimp only; cases run strtod st r <;> rfl

theorem Wants.ne {s : St} (h : Wants s) : s ≠ .complete ∧ ¬ (s = .lexError ∨ s = .parseError) := by
  rcases h with rfl | rfl | rfl | rfl <;> decide

theorem Wants.onTok {s : St} (h : Wants s) (rest : List St) (t : Tok) (raw : List Byte) : onTok strtod s rest t raw = onValue strtod s rest t raw := by
  rcases h with rfl | rfl | rfl | rfl <;> rfl

/-- The token of a string, and what is passed on. -/
theorem body_tok {raw s : List Byte} (h : Body raw s) : ∃ t, TokText t (0x22#8 :: raw ++ [0x22#8]) ∧ body t (0x22#8 :: raw ++ [0x22#8]) = raw ∧ (t = .string ∧ s = raw ∨ t = .stringEsc) := by
  obtain ⟨_, e, h1, h2⟩ := body_ok h
  cases e with
  | false => exact ⟨.string, by simpa using TokText.str h1, body_quotes (Or.inl rfl), Or.inl ⟨rfl, h2 rfl⟩⟩
  | true => exact ⟨.stringEsc, by simpa using TokText.str h1, body_quotes (Or.inr rfl), Or.inr rfl⟩

theorem run_key {s : St} {rest : List St} {raw k : List Byte} (hs : s = .mapStart ∨ s = .mapNeedKey) (h : Body raw k) (r : List Byte) :
    run strtod (s :: rest) (0x22#8 :: raw ++ 0x22#8 :: r) = (run strtod (.mapSep :: rest) r).map fun y => (.key k :: y.1, y.2) := by
  obtain ⟨t, h1, h2, h3⟩ := body_tok h
  have hd := (body_ok h).1
  have := run_step (strtod := strtod) (s := s) (rest := rest) (st := .mapSep :: rest) (ev := some (.key k)) (r := r) (by rcases hs with rfl | rfl <;> decide)
    (by rcases hs with rfl | rfl <;> decide) h1 (by rcases h3 with ⟨rfl, _⟩ | rfl <;> rintro (h | h) <;> cases h) (by
      rw [h2]
      rcases h3 with ⟨rfl, rfl⟩ | rfl
      · rcases hs with rfl | rfl <;> rfl
      · rcases hs with rfl | rfl <;> simp [onTok, onKey, hd])
  simpa using this

theorem map_map {α : Type} (x : Option (List Ev × α)) (a b : List Ev) :
    (x.map fun y => (b ++ y.1, y.2)).map (fun y => (a ++ y.1, y.2)) = x.map fun y => ((a ++ b) ++ y.1, y.2) := by
  cases x <;> simp

theorem single_tok {c : Byte} {t : Tok} (h : single c = some t) {s : St} {rest st : List St} {ev : Option Ev} (h1 : s ≠ .complete) (h2 : ¬ (s = .lexError ∨ s = .parseError))
    (ho : onTok strtod s rest t [c] = some (.go ev st)) (r : List Byte) : run strtod (s :: rest) (c :: r) = (run strtod st r).map fun y => (ev.toList ++ y.1, y.2) := by
  have hi := single_iff h
  have hb : body t [c] = [c] := by
    rw [body, if_neg]
    rintro (rfl | rfl) <;> simp at hi
  exact run_step (raw := [c]) h1 h2 (.single h) (by rintro (rfl | rfl) <;> simp at hi) (by rw [hb]; exact ho)

mutual
theorem run_val : ∀ (j : J) {t : List Byte}, Val strtod t j → ∀ {s : St} (rest : List St) {r : List Byte}, Wants s → Stops r →
    run strtod (s :: rest) (t ++ r) = (run strtod (gotVal s :: rest) r).map fun y => (j.events ++ y.1, y.2)
  | .null, t, h, s, rest, r, hs, hr => by
    cases h
    exact run_step (ev := some .null) hs.ne.1 hs.ne.2 .null (fun _ => hr) (by rw [hs.onTok]; rfl)
  | .bool b, t, h, s, rest, r, hs, hr => by
    cases h with
    | tru => exact run_step (ev := some (.bool true)) hs.ne.1 hs.ne.2 .tru (fun _ => hr) (by rw [hs.onTok]; rfl)
    | fls => exact run_step (ev := some (.bool false)) hs.ne.1 hs.ne.2 .fls (fun _ => hr) (by rw [hs.onTok]; rfl)
  | .int v, t, h, s, rest, r, hs, hr => by
    cases h with
    | nat h hv =>
      refine run_step (ev := some (.int _)) hs.ne.1 hs.ne.2 (.num (.int (s := []) (Or.inl rfl) h)) (fun _ => hr) ?_
      rw [hs.onTok, show body (numTok false) t = t from rfl, show numTok false = .integer from rfl, onValue, parseInteger_nat h, if_pos hv]
    | @neg l h hv =>
      refine run_step (ev := some (.int _)) hs.ne.1 hs.ne.2 (.num (.int (s := [0x2d#8]) (Or.inr rfl) h)) (fun _ => hr) ?_
      rw [hs.onTok, show body (numTok false) (0x2d#8 :: l) = 0x2d#8 :: l from rfl, show numTok false = .integer from rfl, onValue, parseInteger_neg h, if_pos hv]
  | .dbl v, t, h, s, rest, r, hs, hr => by
    cases h with
    | dbl h hv =>
      refine run_step (ev := some (.dbl v)) hs.ne.1 hs.ne.2 (.num (.float h)) (fun _ => hr) ?_
      rw [hs.onTok, show body (numTok true) t = t from rfl, show numTok true = .double from rfl, onValue, hv]
  | .str x, t, h, s, rest, r, hs, hr => by
    cases h with
    | @str raw _ h =>
      obtain ⟨t, h1, h2, h3⟩ := body_tok h
      have hd := (body_ok h).1
      refine run_step (ev := some (.str x)) hs.ne.1 hs.ne.2 h1 (fun _ => hr) ?_
      rw [hs.onTok, h2]
      rcases h3 with ⟨rfl, rfl⟩ | rfl
      · rfl
      · rw [onValue, hd]; rfl
  | .arr a, t, h, s, rest, r, hs, hr => by
    have ho : ∀ l, run strtod (s :: rest) (0x5b#8 :: l) = (run strtod (.arrStart :: gotVal s :: rest) l).map fun y => ([.startArr] ++ y.1, y.2) := fun l =>
      single_tok (t := .lsquare) (ev := some .startArr) rfl hs.ne.1 hs.ne.2 (by rw [hs.onTok]; rfl) l
    cases h with
    | @arr0 g hg =>
      rw [List.cons_append, List.cons_append, List.append_assoc, ho, run_gap hg, List.cons_append, List.nil_append,
        single_tok (t := .rsquare) (ev := some .endArr) (st := gotVal s :: rest) rfl (by decide) (by decide) rfl, map_map]
      rfl
    | @arr t _ h =>
      rw [List.cons_append, List.cons_append, List.append_assoc, ho, List.cons_append, List.nil_append, run_items a h _ (Or.inr rfl), map_map,
        single_tok (t := .rsquare) (ev := some .endArr) (st := gotVal s :: rest) rfl (by decide) (by decide) rfl, map_map]
      rfl
  | .obj m, t, h, s, rest, r, hs, hr => by
    have ho : ∀ l, run strtod (s :: rest) (0x7b#8 :: l) = (run strtod (.mapStart :: gotVal s :: rest) l).map fun y => ([.startMap] ++ y.1, y.2) := fun l =>
      single_tok (t := .lcurly) (ev := some .startMap) rfl hs.ne.1 hs.ne.2 (by rw [hs.onTok]; rfl) l
    cases h with
    | @obj0 g hg =>
      rw [List.cons_append, List.cons_append, List.append_assoc, ho, run_gap hg, List.cons_append, List.nil_append,
        single_tok (t := .rcurly) (ev := some .endMap) (st := gotVal s :: rest) rfl (by decide) (by decide) rfl, map_map]
      rfl
    | @obj t _ h =>
      rw [List.cons_append, List.cons_append, List.append_assoc, ho, List.cons_append, List.nil_append, run_members m h _ (Or.inl rfl), map_map,
        single_tok (t := .rcurly) (ev := some .endMap) (st := gotVal s :: rest) rfl (by decide) (by decide) rfl, map_map]
      rfl
theorem run_items : ∀ (a : JArr) {t : List Byte}, Items strtod t a → ∀ {s : St} (rest : List St) {r : List Byte}, s = .arrNeedVal ∨ s = .arrStart →
    run strtod (s :: rest) (t ++ 0x5d#8 :: r) = (run strtod (.arrGotVal :: rest) (0x5d#8 :: r)).map fun y => (a.events ++ y.1, y.2)
  | .nil, t, h, s, rest, r, hs => by cases h
  | .cons v a, t, h, s, rest, r, hs => by
    have hw : Wants s := by rcases hs with rfl | rfl; exacts [Or.inr (Or.inr (Or.inl rfl)), Or.inr (Or.inr (Or.inr rfl))]
    have hgot : gotVal s = .arrGotVal := by rcases hs with rfl | rfl <;> rfl
    cases h with
    | @one g t g' _ h1 h2 h3 =>
      rw [List.append_assoc, List.append_assoc, run_gap h1, run_val v h2 rest hw (stops_gap h3 (stops_cons (by unfold Stop; decide) _)), run_gap h3, hgot]
      simp [JArr.events]
    | @more g t g' t' _ _ h1 h2 h3 h4 =>
      rw [show g ++ t ++ g' ++ 0x2c#8 :: t' ++ 0x5d#8 :: r = g ++ (t ++ (g' ++ 0x2c#8 :: (t' ++ 0x5d#8 :: r))) by simp, run_gap h1,
        run_val v h2 rest hw (stops_gap h3 (stops_cons (by unfold Stop; decide) _)), run_gap h3, hgot,
        single_tok (t := .comma) (ev := none) (st := .arrNeedVal :: rest) rfl (by decide) (by decide) rfl, run_items a h4 rest (Or.inl rfl), map_map, map_map]
      simp [JArr.events]
theorem run_members : ∀ (m : JObj) {t : List Byte}, Members strtod t m → ∀ {s : St} (rest : List St) {r : List Byte}, s = .mapStart ∨ s = .mapNeedKey →
    run strtod (s :: rest) (t ++ 0x7d#8 :: r) = (run strtod (.mapGotVal :: rest) (0x7d#8 :: r)).map fun y => (m.events ++ y.1, y.2)
  | .nil, t, h, s, rest, r, hs => by cases h
  | .cons k v m, t, h, s, rest, r, hs => by
    have hw : Wants .mapNeedVal := Or.inr (Or.inl rfl)
    cases h with
    | @one g raw _ g1 g2 t g' _ h1 h2 h3 h4 h5 h6 =>
      rw [show g ++ 0x22#8 :: raw ++ 0x22#8 :: g1 ++ 0x3a#8 :: g2 ++ t ++ g' ++ 0x7d#8 :: r = g ++ (0x22#8 :: raw ++ 0x22#8 :: (g1 ++ 0x3a#8 :: (g2 ++ (t ++ (g' ++ 0x7d#8 :: r))))) by simp,
        run_gap h1, run_key hs h2, run_gap h3, single_tok (t := .colon) (ev := none) (st := .mapNeedVal :: rest) rfl (by decide) (by decide) rfl, run_gap h4,
        run_val v h5 rest hw (stops_gap h6 (stops_cons (by unfold Stop; decide) _)), run_gap h6]
      simp [JObj.events, gotVal]
      rfl
    | @more g raw _ g1 g2 t g' t' _ _ h1 h2 h3 h4 h5 h6 h7 =>
      rw [show g ++ 0x22#8 :: raw ++ 0x22#8 :: g1 ++ 0x3a#8 :: g2 ++ t ++ g' ++ 0x2c#8 :: t' ++ 0x7d#8 :: r =
          g ++ (0x22#8 :: raw ++ 0x22#8 :: (g1 ++ 0x3a#8 :: (g2 ++ (t ++ (g' ++ 0x2c#8 :: (t' ++ 0x7d#8 :: r)))))) by simp,
        run_gap h1, run_key hs h2, run_gap h3, single_tok (t := .colon) (ev := none) (st := .mapNeedVal :: rest) rfl (by decide) (by decide) rfl, run_gap h4,
        run_val v h5 rest hw (stops_gap h6 (stops_cons (by unfold Stop; decide) _)), run_gap h6, show gotVal .mapNeedVal = .mapGotVal from rfl,
        single_tok (t := .comma) (ev := none) (st := .mapNeedKey :: rest) rfl (by decide) (by decide) rfl, run_members m h7 rest (Or.inr rfl)]
      simp [JObj.events]
      rfl
end

/-- A text of the grammar is accepted. -/
theorem accept_complete {txt : List Byte} {j : J} (h : Text strtod txt j) : ∃ r, run strtod [.start] (txt ++ [0x20#8]) = some (j.events, r) ∧ r.good = true := by
  obtain ⟨g, t, g', e, rfl, h1, h2, h3, h4⟩ := h
  have hst : Stops (e ++ [0x20#8]) := by
    rcases h4 with rfl | ⟨l, rfl, _⟩ <;> exact stops_cons (by unfold Stop; decide) _
  rw [show g ++ t ++ g' ++ e ++ [0x20#8] = g ++ (t ++ (g' ++ (e ++ [0x20#8]))) by simp, run_gap h1, run_val j h2 [] (Or.inl rfl) (stops_gap h3 hst), run_gap h3,
    show gotVal .start = .complete from rfl, run_complete]
  have hl : ∃ q, lexP (e ++ [0x20#8]) = .eof q := by
    rcases h4 with rfl | ⟨l, rfl, hl⟩
    · exact ⟨[], by rw [List.nil_append, lexP_ws (by decide), lexP_nil]⟩
    · refine ⟨0x2f#8 :: 0x2f#8 :: (l ++ [0x20#8]), ?_⟩
      rw [List.cons_append, List.cons_append, lexP_com, comP, if_pos rfl, lineP_open (by simpa using hl)]
  obtain ⟨q, hq⟩ := hl
  rw [hq]
  exact ⟨.more [.complete] q, by simp, rfl⟩

end WG.Yajl
