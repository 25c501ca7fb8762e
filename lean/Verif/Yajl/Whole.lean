import Verif.Yajl.Sound
import Verif.Json.Top
/-! # Whole texts: what is accepted, and what happens on a text that is not -/
namespace WG.Yajl
open WG.Json (Ev J JArr JObj)
open WG.Recs (Byte)

variable {strtod : List Byte → Option (BitVec 64)}

/-! ## Ends of texts -/

theorem split_last {α : Type} {a b g : List α} {x : α} (h : a ++ b = g ++ [x]) (hb : b ≠ []) : ∃ b', b = b' ++ [x] ∧ g = a ++ b' := by
  obtain ⟨b', y, rfl⟩ : ∃ b' y, b = b' ++ [y] := ⟨b.dropLast, b.getLast hb, (List.dropLast_append_getLast hb).symm⟩
  rw [← List.append_assoc] at h
  obtain ⟨h1, h2⟩ := List.append_inj' h rfl
  cases h2
  exact ⟨b', rfl, h1.symm⟩

theorem last_mem {α : Type} {b g : List α} {x : α} (h : b = g ++ [x]) : x ∈ b := by rw [h]; simp

theorem Gap.strip {g : List Byte} (h : Gap g) : ∀ {g1 : List Byte}, g = g1 ++ [0x20#8] → Gap g1 := by
  induction h with
  | nil => intro g1 e; simp at e
  | @ws c g hc hg ih =>
    intro g1 e
    by_cases hn : g = []
    · subst hn
      cases g1 with
      | nil => exact .nil
      | cons d g1 => simp at e
    · obtain ⟨b', e1, rfl⟩ := split_last (a := [c]) e hn
      exact .ws hc (ih e1)
  | @line l g hl hg ih =>
    intro g1 e
    by_cases hn : g = []
    · subst hn
      obtain ⟨b', e1, _⟩ := split_last (a := 0x2f#8 :: 0x2f#8 :: l) (b := [0x0a#8]) e (by simp)
      have := last_mem e1; simp at this
    · obtain ⟨b', e1, rfl⟩ := split_last (a := 0x2f#8 :: 0x2f#8 :: l ++ [0x0a#8]) (b := g) (by simpa using e) hn
      simpa using Gap.line hl (ih e1)
  | @block l g hl hg ih =>
    intro g1 e
    by_cases hn : g = []
    · subst hn
      obtain ⟨b', e1, _⟩ := split_last (a := 0x2f#8 :: 0x2a#8 :: l ++ [0x2a#8]) (b := [0x2f#8]) (by simpa using e) (by simp)
      have := last_mem e1; simp at this
    · obtain ⟨b', e1, rfl⟩ := split_last (a := 0x2f#8 :: 0x2a#8 :: l ++ [0x2a#8, 0x2f#8]) (b := g) (by simpa using e) hn
      simpa using Gap.block hl (ih e1)

theorem sp_digits {l : List Byte} (h : ∀ c ∈ l, Between 0x30 0x39 c) : 0x20#8 ∉ l := by
  intro hc
  exact absurd (h _ hc) (by decide)

theorem float_sp {l : List Byte} (h : FloatText l) : l ≠ [] ∧ 0x20#8 ∉ l := by
  obtain ⟨sign, int, frac, exp, rfl, h1, h2, h3, h4, -⟩ := h
  have i1 := sp_digits h2.1.2
  have i2 : 0x20#8 ∉ sign := by rcases h1 with rfl | rfl <;> decide
  have i3 : 0x20#8 ∉ frac := by
    rcases h3 with rfl | ⟨ds, rfl, h⟩
    · simp
    · simpa using sp_digits h.2
  have i4 : 0x20#8 ∉ exp := by
    rcases h4 with rfl | ⟨e, s, ds, rfl, he, hs, h⟩
    · simp
    · have := sp_digits h.2
      rcases he with rfl | rfl <;> rcases hs with rfl | rfl | rfl <;> simpa using this
  refine ⟨?_, by simp [i1, i2, i3, i4]⟩
  have := h2.1.1
  intro e
  simp at e
  exact this e.2.1

theorem Val.last {t : List Byte} {j : J} (h : Val strtod t j) : t ≠ [] ∧ ∀ g, t ≠ g ++ [0x20#8] := by
  have end' : ∀ {a : List Byte} {c : Byte}, c ≠ 0x20#8 → a ++ [c] ≠ [] ∧ ∀ g, a ++ [c] ≠ g ++ [0x20#8] := by
    intro a c hc
    refine ⟨by simp, fun g e => ?_⟩
    obtain ⟨b', e1, _⟩ := split_last e (by simp)
    have := last_mem e1
    exact hc (List.mem_singleton.1 this).symm
  have num : ∀ {a : List Byte}, a ≠ [] → 0x20#8 ∉ a → a ≠ [] ∧ ∀ g, a ≠ g ++ [0x20#8] := fun h1 h2 => ⟨h1, fun g e => h2 (last_mem e)⟩
  cases h with
  | null => exact num (by simp) (by decide)
  | tru => exact num (by simp) (by decide)
  | fls => exact num (by simp) (by decide)
  | nat h => exact num h.1.1 (sp_digits h.1.2)
  | neg h => exact num (by simp) (by simpa using sp_digits h.1.2)
  | dbl h => exact num (float_sp h).1 (float_sp h).2
  | str => exact end' (by decide)
  | arr0 => exact end' (by decide)
  | arr => exact end' (by decide)
  | obj0 => exact end' (by decide)
  | obj => exact end' (by decide)

theorem Paired.snoc {txt : List Byte} (h : Paired txt) : Paired (txt ++ [0x20#8]) := by
  intro a x b n e hx h1 h2
  by_cases hb : b = []
  · subst hb
    exfalso
    obtain ⟨b', e1, _⟩ := split_last (a := a) (b := 0x5c#8 :: 0x75#8 :: x ++ []) (by simpa using e.symm) (by simp)
    have e2 : 0x5c#8 :: 0x75#8 :: x = b' ++ [0x20#8] := by simpa using e1
    have hm := last_mem e2
    cases hx with
    | mk i1 i2 i3 i4 =>
      have j1 := isVHC_of i1; have j2 := isVHC_of i2; have j3 := isVHC_of i3; have j4 := isVHC_of i4
      simp only [List.mem_cons, List.not_mem_nil, or_false] at hm
      rcases hm with hm | hm | hm | hm | hm | hm
      · exact absurd hm (by decide)
      · exact absurd hm (by decide)
      · rw [← hm] at j1; exact absurd j1 (by decide)
      · rw [← hm] at j2; exact absurd j2 (by decide)
      · rw [← hm] at j3; exact absurd j3 (by decide)
      · rw [← hm] at j4; exact absurd j4 (by decide)
  · obtain ⟨b', e1, e2⟩ := split_last (a := a ++ 0x5c#8 :: 0x75#8 :: x) (b := b) (by simpa using e.symm) hb
    obtain ⟨h', m, b'', e3, e4, e5, e6⟩ := h a x b' n (by simpa using e2) hx h1 h2
    exact ⟨h', m, b'' ++ [0x20#8], by rw [e1, e3]; simp, e4, e5, e6⟩

theorem wordP_eof {t : Tok} : ∀ {w l : List Byte}, wordP t w l = .eof → l <+: w
  | [], l, h => by rw [wordP] at h; cases h
  | w :: ws, [], h => by simp
  | w :: ws, c :: l, h => by
    rw [wordP] at h
    split_ifs at h with hc
    rw [not_not] at hc
    subst hc
    obtain ⟨x, hx⟩ := wordP_eof h
    exact ⟨x, by rw [← hx]; rfl⟩

theorem drop_sp {l : List Byte} (h : 0x20#8 ∉ l.dropWhile isDigit) : 0x20#8 ∉ l := by
  intro hm
  rw [← List.takeWhile_append_dropWhile (p := isDigit) (l := l), List.mem_append] at hm
  rcases hm with hm | hm
  · exact absurd (digits_take l _ hm) (by decide)
  · exact h hm

theorem digit_sp {c : Byte} (h : isDigit c = true) : ¬ 0x20#8 = c := by rintro rfl; exact absurd h (by decide)

theorem expD_eof {l : List Byte} (h : expD l = .eof) : 0x20#8 ∉ l := by
  cases l with
  | nil => simp
  | cons c l =>
    rw [expD] at h
    split_ifs at h with hc
    cases hd : l.dropWhile isDigit with
    | nil =>
      simp only [List.mem_cons, not_or]
      exact ⟨digit_sp hc, drop_sp (by rw [hd]; simp)⟩
    | cons d r => rw [hd] at h; cases h

theorem expP_eof {l : List Byte} {tok : Tok} (h : expP l tok = .eof) : 0x20#8 ∉ l := by
  rw [expP_def] at h
  rcases l with _ | ⟨c, _ | ⟨d, l⟩⟩
  · simp
  · dsimp only at h
    split_ifs at h with hc
    rcases hc with rfl | rfl <;> decide
  · dsimp only at h
    split_ifs at h with hc hd
    · have := expD_eof h
      rcases hc with rfl | rfl <;> rcases hd with rfl | rfl <;> simpa using this
    · have := expD_eof h
      rcases hc with rfl | rfl <;> simpa using this

theorem fracP_eof {l : List Byte} (h : fracP l = .eof) : 0x20#8 ∉ l := by
  rw [fracP.eq_def] at h
  rcases l with _ | ⟨c, l⟩
  · simp
  · dsimp only at h
    split_ifs at h with hc
    · subst hc
      rcases l with _ | ⟨d, l⟩
      · decide
      · dsimp only at h
        split_ifs at h with hd
        have := drop_sp (expP_eof h)
        simp only [List.mem_cons, not_or]
        exact ⟨by decide, digit_sp hd, this⟩
    · exact expP_eof h

theorem intP_eof {l : List Byte} (h : intP l = .eof) : 0x20#8 ∉ l := by
  rcases l with _ | ⟨c, l⟩
  · simp
  · rw [intP] at h
    split_ifs at h with hc hd
    · subst hc; simpa using fracP_eof h
    · have := drop_sp (fracP_eof h)
      simp only [List.mem_cons, not_or]
      refine ⟨?_, this⟩
      rintro rfl
      exact absurd hd (by decide)

theorem numP_eof {l : List Byte} (h : numP l = .eof) : 0x20#8 ∉ l := by
  rcases l with _ | ⟨c, l⟩
  · simp
  · rw [numP] at h
    split_ifs at h with hc
    · subst hc; simpa using intP_eof h
    · exact intP_eof h

theorem lineP_eof : ∀ {l : List Byte}, lineP l = .eof → 0x0a#8 ∉ l
  | [], _ => by simp
  | c :: l, h => by
    rw [lineP] at h
    split_ifs at h with hc
    simp only [List.mem_cons, not_or]
    exact ⟨fun e => hc e.symm, lineP_eof h⟩

theorem blockP_eof : ∀ {l : List Byte}, blockP l = .eof → ¬ [0x2a#8, 0x2f#8] <:+: l
  | [], _ => by simp
  | c :: l, h => by
    rw [blockP_cons] at h
    split_ifs at h with hc
    · cases l with
      | nil => exact not_infix_cons (by simp) (by simp)
      | cons d r =>
        dsimp only at h
        split_ifs at h with hd
        exact not_infix_cons (blockP_eof h) (by rintro ⟨_, e⟩; exact hd (by simpa using e))
    · exact not_infix_cons (blockP_eof h) (by rintro ⟨e, _⟩; exact hc e)

/-! ## What is accepted -/

theorem pend_cases {q u : List Byte} (h : Pend q) (hq : q = u ++ [0x20#8]) :
    (∃ l, u = 0x2f#8 :: 0x2f#8 :: l ∧ 0x0a#8 ∉ l) ∨ (∃ l, u = 0x2f#8 :: 0x2a#8 :: l ∧ ¬ [0x2a#8, 0x2f#8] <:+: l) ∨
    ∃ l, u = 0x22#8 :: l ∧ ∀ b s r, Body b s → l ≠ b ++ 0x22#8 :: r := by
  cases h with
  | nil => simp at hq
  | @com l hc =>
    rcases l with _ | ⟨c, l⟩
    · have := last_mem hq; simp at this
    · rw [comP] at hc
      split_ifs at hc with h1 h2
      · subst h1
        have hl : l ≠ [] := by rintro rfl; have := last_mem hq; simp at this
        obtain ⟨l', rfl, rfl⟩ := split_last (a := [0x2f#8, 0x2f#8]) hq hl
        have := lineP_eof hc
        exact Or.inl ⟨l', rfl, fun h => this (by simp [h])⟩
      · subst h2
        have hl : l ≠ [] := by rintro rfl; have := last_mem hq; simp at this
        obtain ⟨l', rfl, rfl⟩ := split_last (a := [0x2f#8, 0x2a#8]) hq hl
        have := blockP_eof hc
        exact Or.inr (Or.inl ⟨l', rfl, fun h => this (h.trans (List.infix_append' [] l' [0x20#8]))⟩)
  | @long c l h1 h2 h3 hc =>
    have hm := last_mem hq
    have word : ∀ {w : List Byte} {t : Tok}, 0x20#8 ∉ c :: w → wordP t w l = .eof → False := by
      intro w t hw he
      obtain ⟨x, rfl⟩ := wordP_eof he
      simp only [List.mem_cons, List.mem_append, not_or] at hw hm
      rcases hm with hm | hm
      · exact hw.1 hm
      · exact hw.2.1 hm
    unfold longP at hc
    split_ifs at hc with i1 i2 i3 i4 i5
    · subst i1; exact (word (by decide) hc).elim
    · subst i2; exact (word (by decide) hc).elim
    · subst i3; exact (word (by decide) hc).elim
    · subst i4
      have hl : l ≠ [] := by rintro rfl; simp at hm
      obtain ⟨l', rfl, rfl⟩ := split_last (a := [0x22#8]) hq hl
      refine Or.inr (Or.inr ⟨l', rfl, ?_⟩)
      rintro b s r hb rfl
      obtain ⟨_, e, hb', _⟩ := body_ok hb
      rw [List.append_assoc, List.cons_append, strP_complete hb'] at hc
      cases hc
    · exact absurd hm (numP_eof hc)

theorem accept_sound {txt : List Byte} (hp : Paired txt) {evs : List Ev} {r : PR} (h : run strtod [.start] (txt ++ [0x20#8]) = some (evs, r)) (hr : r.good = true) :
    ∃ j, evs = j.events ∧ (Text strtod txt j ∨ Cut strtod txt j) := by
  obtain ⟨evs', r', txt', st', q, e1, e2, e3, e4⟩ := run_sound _ (Nat.le_refl _) hp.snoc (Open.pre (strtod := strtod) (Pre.top .nil))
  rw [h] at e1
  cases e1
  cases r with
  | bad => cases hr
  | more st1 q1 =>
    obtain ⟨rfl, rfl, hpend⟩ := e4 _ _ rfl
    have inv : ∃ g t g' j, Gap g ∧ Val strtod t j ∧ Gap g' ∧ evs = j.events ∧ txt' = g ++ t ++ g' := by
      simp only [List.nil_append] at e3
      cases e3 with
      | pre h0 => cases h0 <;> cases hr
      | got h0 hv hg =>
        cases h0 with
        | top h0 => exact ⟨_, _, _, _, h0, hv, hg, by simp, rfl⟩
        | _ => cases hr
      | _ => cases hr
    obtain ⟨g, t, g', j, i1, i2, i3, i4, rfl⟩ := inv
    refine ⟨j, i4, ?_⟩
    by_cases hq : q1 = []
    · subst hq
      rw [List.append_nil] at e2
      by_cases hg : g' = []
      · subst hg
        rw [List.append_nil] at e2
        obtain ⟨b, e, _⟩ := split_last e2.symm i2.last.1
        exact absurd e (i2.last.2 b)
      · obtain ⟨b, e, rfl⟩ := split_last e2.symm hg
        exact Or.inl ⟨g, t, b, [], by simp, i1, i2, i3.strip e, Or.inl rfl⟩
    · obtain ⟨u, e, rfl⟩ := split_last e2.symm hq
      rcases pend_cases hpend e with h | h | h
      · exact Or.inl ⟨g, t, g', u, rfl, i1, i2, i3, Or.inr h⟩
      · exact Or.inr ⟨g, t, g', u, rfl, i1, i2, i3, Or.inl h⟩
      · exact Or.inr ⟨g, t, g', u, rfl, i1, i2, i3, Or.inr h⟩

/-! ## A text that is not accepted -/

mutual
theorem val_len : ∀ (j : J) {t : List Byte}, Val strtod t j → j.events.length ≤ t.length
  | .null, t, h => by cases h; simp [J.events]
  | .bool b, t, h => by cases h <;> simp [J.events]
  | .int v, t, h => by
    cases h with
    | nat h => have := List.length_pos_iff.2 h.1.1; simp [J.events]; omega
    | neg h => simp [J.events]
  | .dbl v, t, h => by
    cases h with
    | dbl h => have := List.length_pos_iff.2 (float_sp h).1; simp [J.events]; omega
  | .str s, t, h => by cases h; simp [J.events]
  | .arr a, t, h => by
    cases h with
    | arr0 => simp [J.events, JArr.events]
    | arr h => have := items_len a h; simp [J.events]; omega
  | .obj m, t, h => by
    cases h with
    | obj0 => simp [J.events, JObj.events]
    | obj h => have := members_len m h; simp [J.events]; omega
theorem items_len : ∀ (a : JArr) {t : List Byte}, Items strtod t a → a.events.length ≤ t.length
  | .nil, t, h => by cases h
  | .cons v a, t, h => by
    cases h with
    | one h1 h2 h3 => have := val_len v h2; simp [JArr.events]; omega
    | more h1 h2 h3 h4 => have := val_len v h2; have := items_len a h4; simp [JArr.events]; omega
theorem members_len : ∀ (m : JObj) {t : List Byte}, Members strtod t m → m.events.length ≤ t.length
  | .nil, t, h => by cases h
  | .cons k v m, t, h => by
    cases h with
    | one h1 h2 h3 h4 h5 h6 => have := val_len v h5; simp [JObj.events]; omega
    | more h1 h2 h3 h4 h5 h6 h7 => have := val_len v h5; have := members_len m h7; simp [JObj.events]; omega
end

def addItem (j : J) : JArr → JArr
  | .nil => .cons j .nil
  | .cons x a => .cons x (addItem j a)

def addMember (k : List Byte) (j : J) : JObj → JObj
  | .nil => .cons k j .nil
  | .cons x y m => .cons x y (addMember k j m)

theorem addItem_events (j : J) : ∀ a : JArr, (addItem j a).events = a.events ++ j.events
  | .nil => by simp [addItem, JArr.events]
  | .cons x a => by simp [addItem, JArr.events, addItem_events j a]

theorem addMember_events (k : List Byte) (j : J) : ∀ m : JObj, (addMember k j m).events = m.events ++ .key k :: j.events
  | .nil => by simp [addMember, JObj.events]
  | .cons x y m => by simp [addMember, JObj.events, addMember_events k j m]

theorem before_len {b : List Byte} {m : JObj} (h : Before strtod b m) : m.events.length ≤ b.length := by
  cases h with
  | none => simp [JObj.events]
  | some h => have := members_len m h; simp; omega

/-- A text can be completed: after any value in the open place only brackets are missing. -/
theorem Pre.close {s : St} {rest : List St} {evs : List Ev} {txt : List Byte} (h : Pre strtod s rest evs txt) : evs.length ≤ txt.length ∧
    ∀ j' : J, ∃ j w, j.events = evs ++ j'.events ++ w ∧ w.length ≤ txt.length ∧ (j.isText = true ∨ j = j' ∧ evs = [] ∧ w = []) := by
  induction h with
  | top => exact ⟨by simp, fun j' => ⟨j', [], by simp, by simp, Or.inr ⟨rfl, rfl, rfl⟩⟩⟩
  | @arr0 s rest evs txt g h hg ih =>
    refine ⟨by simp; omega, fun j' => ?_⟩
    obtain ⟨j, w, e1, e2, e3⟩ := ih.2 (.arr (.cons j' .nil))
    refine ⟨j, .endArr :: w, by simp [e1, J.events, JArr.events], by simp; omega, ?_⟩
    rcases e3 with e3 | ⟨rfl, _⟩
    exacts [Or.inl e3, Or.inl rfl]
  | @arr s rest evs txt t g a h ht hg ih =>
    have hl := items_len a ht
    refine ⟨by simp; omega, fun j' => ?_⟩
    obtain ⟨j, w, e1, e2, e3⟩ := ih.2 (.arr (addItem j' a))
    refine ⟨j, .endArr :: w, by simp [e1, J.events, addItem_events], by simp; omega, ?_⟩
    rcases e3 with e3 | ⟨rfl, _⟩
    exacts [Or.inl e3, Or.inl rfl]
  | @obj s rest evs txt b g raw k g1 g2 m h hb hg hk hg1 hg2 ih =>
    have hl := before_len hb
    refine ⟨by simp; omega, fun j' => ?_⟩
    obtain ⟨j, w, e1, e2, e3⟩ := ih.2 (.obj (addMember k j' m))
    refine ⟨j, .endMap :: w, by simp [e1, J.events, addMember_events], by simp; omega, ?_⟩
    rcases e3 with e3 | ⟨rfl, _⟩
    exacts [Or.inl e3, Or.inl rfl]

/-- The calls made so far are the beginning of the calls for some value. -/
theorem Open.close {st : List St} {evs : List Ev} {txt : List Byte} (h : Open strtod st evs txt) :
    ∃ j : J, evs <+: j.events ∧ j.events.length ≤ 2 * txt.length + 2 ∧ (j.isText = true ∨ evs = [] ∨ evs = j.events) := by
  have brackets : ∀ {s : St} {rest : List St} {evs : List Ev} {txt : List Byte}, Pre strtod s rest evs txt → ∀ {j' : J} {x y : List Ev} {n : Nat}, j'.isText = true → j'.events = x ++ y →
      x.length ≤ n → y.length ≤ 2 → ∃ j : J, evs ++ x <+: j.events ∧ j.events.length ≤ 2 * (txt.length + n) + 2 ∧ (j.isText = true ∨ evs ++ x = [] ∨ evs ++ x = j.events) := by
    intro s rest evs txt h j' x y n hj hx h1 h2
    obtain ⟨e0, e⟩ := h.close
    obtain ⟨j, w, e1, e2, e3⟩ := e j'
    refine ⟨j, ⟨y ++ w, by rw [e1, hx]; simp⟩, ?_, Or.inl ?_⟩
    · rw [e1, hx]; simp; omega
    · rcases e3 with e3 | ⟨rfl, _⟩
      exacts [e3, hj]
  cases h with
  | pre h =>
    obtain ⟨e0, e⟩ := h.close
    obtain ⟨j, w, e1, e2, e3⟩ := e .null
    refine ⟨j, ⟨J.null.events ++ w, by rw [e1]; simp⟩, ?_, ?_⟩
    · rw [e1]; simp [J.events]; omega
    · rcases e3 with e3 | ⟨_, e3, _⟩
      exacts [Or.inl e3, Or.inr (Or.inl e3)]
  | @got s rest evs txt t g j' h hv hg =>
    obtain ⟨e0, e⟩ := h.close
    obtain ⟨j, w, e1, e2, e3⟩ := e j'
    have := val_len j' hv
    refine ⟨j, ⟨w, by rw [e1]⟩, ?_, ?_⟩
    · rw [e1]; simp; omega
    · rcases e3 with e3 | ⟨rfl, rfl, rfl⟩
      exacts [Or.inl e3, Or.inr (Or.inr (by simp))]
  | @mapStart s rest evs txt g h hg =>
    obtain ⟨j, e1, e2, e3⟩ := brackets h (j' := .obj .nil) (x := [.startMap]) (y := [.endMap]) (n := 1) rfl rfl (by simp) (by simp)
    exact ⟨j, e1, by simp; omega, e3⟩
  | @mapKey s rest evs txt t g m h hm hg =>
    have := members_len m hm
    obtain ⟨j, e1, e2, e3⟩ := brackets h (j' := .obj m) (x := .startMap :: m.events) (y := [.endMap]) (n := t.length + 1) rfl (by simp [J.events]) (by simp; omega) (by simp)
    exact ⟨j, e1, by simp; omega, e3⟩
  | @mapSep s rest evs txt b g raw k g1 m h hb hg hk hg1 =>
    have := before_len hb
    obtain ⟨j, e1, e2, e3⟩ := brackets h (j' := .obj (addMember k .null m)) (x := .startMap :: m.events ++ [.key k]) (y := [.null, .endMap]) (n := b.length + 2) rfl
      (by simp [J.events, addMember_events]) (by simp; omega) (by simp)
    exact ⟨j, by simpa using e1, by simp; omega, by simpa using e3⟩

/-- Whatever the text: the parser ends, and the calls it makes are the beginning of the calls for some value. -/
theorem run_prefix {txt : List Byte} (hp : Paired txt) : ∃ evs r, run strtod [.start] (txt ++ [0x20#8]) = some (evs, r) ∧
    ∃ j : J, evs <+: j.events ∧ j.events.length ≤ 2 * txt.length + 4 ∧ (j.isText = true ∨ evs = [] ∨ evs = j.events) := by
  obtain ⟨evs', r', txt', st', q, e1, e2, e3, e4⟩ := run_sound _ (Nat.le_refl _) hp.snoc (Open.pre (strtod := strtod) (Pre.top .nil))
  obtain ⟨j, f1, f2, f3⟩ := e3.close
  have hl := congrArg List.length e2
  simp only [List.length_append, List.length_cons, List.length_nil, List.nil_append] at hl f1 f2 f3
  exact ⟨_, _, e1, j, f1, by omega, f3⟩

end WG.Yajl
