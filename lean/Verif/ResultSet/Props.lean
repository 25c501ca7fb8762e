import Verif.ResultSet.DHash
import Mathlib.Data.List.GetD

/-!
# C31: intersection and duplicate removal are exact
-/

namespace WG.ResultSet

/-! ## Specification -/

/-- Result sets that can exist: created empty, filled by appending rows (never 0), read and rewound at any time. -/
inductive Built : RSet → List Nat → Prop
  | create {mem s} : create mem = some s → Built s []
  | append {mem s s' rows} (x : Nat) : Built s rows → x ≠ 0 → append mem s x = some s' → Built s' (rows ++ [x])
  | fetch {s rows} : Built s rows → Built (fetch s).2 rows
  | rewind {s rows} : Built s rows → Built (rewind s) rows

/-- The rows that `n` fetches deliver, up to the first 0. -/
def readAll : Nat → RSet → List Nat
  | 0, _ => []
  | n + 1, s => if (fetch s).1 = 0 then [] else (fetch s).1 :: readAll n (fetch s).2

/-- What a user reads from a set: rewind it and fetch until 0. -/
def Reads (s : RSet) (rows : List Nat) : Prop := ∀ n, rows.length < n → readAll n (rewind s) = rows

/-! ## Representation -/

structure Rep (s : RSet) (rows : List Nat) : Prop where
  lens : ∀ pg ∈ s.pages, pg.length = 63
  slot : ∀ p i, p < s.pages.length → i < 63 → (s.pages.getD p []).getD i 0 = rows.getD (63 * p + i) 0
  nz : 0 ∉ rows
  hi : rows.length ≤ 63 * s.pages.length
  w : s.wpidx + 63 * s.pages.length = rows.length + 63 ∧ s.wpidx ≤ 63
  w0 : s.pages ≠ [] → 1 ≤ s.wpidx
  count : s.count = rows.length
  cur : ∀ p, s.rpage = some p → p < s.pages.length ∧ s.rpidx < 63
  e0 : s.pages = [] → s.rpidx = 0

/-- The cursor stands before row `pos`. -/
def At (s : RSet) (rows : List Nat) (pos : Nat) : Prop :=
  match s.rpage with
  | none => rows.length ≤ pos
  | some p => 63 * p + s.rpidx = pos ∧ pos ≤ rows.length

theorem rep_rewind {s : RSet} {rows : List Nat} (h : Rep s rows) : Rep (rewind s) rows ∧ At (rewind s) rows 0 := by
  have hw := h.w
  by_cases h0 : s.pages = []
  · refine ⟨⟨h.lens, h.slot, h.nz, h.hi, h.w, h.w0, h.count, ?_, fun _ => rfl⟩, ?_⟩
    · intro p hp; simp [rewind, h0] at hp
    · simp only [h0, List.length_nil] at hw
      have := h.hi
      simp only [h0, List.length_nil] at this
      simp only [At, rewind, h0, if_true]
      omega
  · refine ⟨⟨h.lens, h.slot, h.nz, h.hi, h.w, h.w0, h.count, ?_, fun _ => rfl⟩, ?_⟩
    · intro p hp
      simp only [rewind, h0, if_false, Option.some.injEq] at hp
      subst hp
      exact ⟨List.length_pos_iff.2 h0, by simp [rewind]⟩
    · simp only [At, rewind, h0, if_false]
      exact ⟨trivial, Nat.zero_le _⟩

theorem getD_lt (rows : List Nat) (i : Nat) (h : i < rows.length) : rows.getD i 0 = rows[i] := by simp [h]

theorem getD_nz {rows : List Nat} (h : 0 ∉ rows) (i : Nat) : rows.getD i 0 = 0 ↔ rows.length ≤ i := by
  constructor
  · intro e
    by_contra hlt
    have hlt : i < rows.length := by omega
    rw [getD_lt rows i hlt] at e
    exact h (e ▸ List.getElem_mem hlt)
  · intro e
    simp [e]

theorem rep_fetch {s : RSet} {rows : List Nat} (h : Rep s rows) : Rep (fetch s).2 rows := by
  unfold fetch
  cases hp : s.rpage with
  | none => exact h
  | some p =>
    simp only
    obtain ⟨c1, c2⟩ := h.cur p hp
    have hne : s.pages ≠ [] := by rintro e; rw [e] at c1; simp at c1
    split_ifs with h1 h2 h3
    · exact ⟨h.lens, h.slot, h.nz, h.hi, h.w, h.w0, h.count, by simp, fun e => absurd e hne⟩
    · exact ⟨h.lens, h.slot, h.nz, h.hi, h.w, h.w0, h.count, fun q hq => ⟨by simpa using (Option.some.inj hq) ▸ h3, by simp⟩, fun e => absurd e hne⟩
    · exact ⟨h.lens, h.slot, h.nz, h.hi, h.w, h.w0, h.count, by simp, fun e => absurd e hne⟩
    · simp only [pageSize] at h2
      exact ⟨h.lens, h.slot, h.nz, h.hi, h.w, h.w0, h.count, fun q hq => ⟨by cases hq; exact c1, by simp only; omega⟩, fun e => absurd e hne⟩

/-- Fetching at a known position. -/
theorem fetch_at {s : RSet} {rows : List Nat} {pos : Nat} (h : Rep s rows) (ha : At s rows pos) :
    (fetch s).1 = rows.getD pos 0 ∧ (pos < rows.length → At (fetch s).2 rows (pos + 1)) := by
  have hw := h.w
  unfold fetch At at *
  cases hp : s.rpage with
  | none =>
    rw [hp] at ha
    simp only at ha ⊢
    exact ⟨((getD_nz h.nz pos).2 ha).symm, by omega⟩
  | some p =>
    rw [hp] at ha
    obtain ⟨c1, c2⟩ := h.cur p hp
    simp only at ha ⊢
    rw [h.slot p s.rpidx c1 c2, ha.1]
    by_cases h0 : rows.getD pos 0 = 0
    · simp only [h0, if_true]
      refine ⟨trivial, fun hlt => ?_⟩
      have := (getD_nz h.nz pos).1 h0
      omega
    · simp only [h0, if_false]
      by_cases h2 : s.rpidx + 1 ≥ pageSize
      · simp only [h2, if_true]
        refine ⟨trivial, fun hlt => ?_⟩
        simp only [pageSize] at h2
        split_ifs with h3
        · simp only; omega
        · simp only; have := h.hi; omega
      · simp only [h2, if_false]
        refine ⟨trivial, fun hlt => ?_⟩
        omega

theorem drop_cons' (rows : List Nat) (pos : Nat) (h : pos < rows.length) : rows.drop pos = rows.getD pos 0 :: rows.drop (pos + 1) := by
  rw [List.drop_eq_getElem_cons h, getD_lt rows pos h]

/-- The fetch loop runs its body on the remaining rows in order. -/
theorem forRows_eq {σ : Type} (body : σ → Nat → Option σ) (n : Nat) : ∀ {s : RSet} {rows : List Nat} {pos : Nat} (st : σ), Rep s rows → At s rows pos →
    rows.length < n + pos → forRows body n s st = (rows.drop pos).foldlM body st := by
  induction n with
  | zero =>
    intro s rows pos st h ha hn
    rw [List.drop_of_length_le (by omega)]
    rfl
  | succ n ih =>
    intro s rows pos st h ha hn
    obtain ⟨f1, f2⟩ := fetch_at h ha
    simp only [forRows]
    rw [f1]
    by_cases hlt : pos < rows.length
    · have h0 : ¬rows.getD pos 0 = 0 := by rw [getD_nz h.nz]; omega
      rw [if_neg h0, drop_cons' rows pos hlt, List.foldlM_cons]
      congr 1
      funext st'
      exact ih st' (rep_fetch h) (f2 hlt) (by omega)
    · rw [if_pos ((getD_nz h.nz pos).2 (by omega)), List.drop_of_length_le (by omega)]
      rfl

theorem readAll_eq (n : Nat) : ∀ {s : RSet} {rows : List Nat} {pos : Nat}, Rep s rows → At s rows pos → rows.length < n + pos →
    readAll n s = rows.drop pos := by
  induction n with
  | zero =>
    intro s rows pos h ha hn
    rw [List.drop_of_length_le (by omega)]
    rfl
  | succ n ih =>
    intro s rows pos h ha hn
    obtain ⟨f1, f2⟩ := fetch_at h ha
    simp only [readAll]
    rw [f1]
    by_cases hlt : pos < rows.length
    · have h0 : ¬rows.getD pos 0 = 0 := by rw [getD_nz h.nz]; omega
      rw [if_neg h0, drop_cons' rows pos hlt, ih (rep_fetch h) (f2 hlt) (by omega)]
    · rw [if_pos ((getD_nz h.nz pos).2 (by omega)), List.drop_of_length_le (by omega)]

theorem search_eq (x : Nat) (n : Nat) : ∀ {s : RSet} {rows : List Nat} {pos : Nat}, Rep s rows → At s rows pos → rows.length < n + pos →
    (search x n s).1 = decide (x ∈ rows.drop pos) ∧ Rep (search x n s).2 rows := by
  induction n with
  | zero =>
    intro s rows pos h ha hn
    rw [List.drop_of_length_le (by omega)]
    exact ⟨by simp [search], h⟩
  | succ n ih =>
    intro s rows pos h ha hn
    obtain ⟨f1, f2⟩ := fetch_at h ha
    simp only [search]
    rw [f1]
    by_cases hlt : pos < rows.length
    · have h0 : ¬rows.getD pos 0 = 0 := by rw [getD_nz h.nz]; omega
      rw [if_neg h0, drop_cons' rows pos hlt]
      split_ifs with hx
      · exact ⟨by simp [hx], rep_fetch h⟩
      · obtain ⟨i1, i2⟩ := ih (rep_fetch h) (f2 hlt) (by omega)
        exact ⟨by rw [i1]; exact decide_eq_decide.2 (by rw [List.mem_cons]; simp only [hx, false_or]), i2⟩
    · rw [if_pos ((getD_nz h.nz pos).2 (by omega)), List.drop_of_length_le (by omega)]
      exact ⟨by simp, rep_fetch h⟩

theorem rep_create {mem : Mem} {s : RSet} (h : create mem = some s) : Rep s [] := by
  unfold create at h
  split_ifs at h
  cases h
  exact ⟨by simp, by simp, by simp, by simp, by simp [pageSize], by simp, rfl, by simp, by simp⟩

theorem getD_append_last (rows : List Nat) (x i : Nat) : (rows ++ [x]).getD i 0 = if i = rows.length then x else rows.getD i 0 := by
  split_ifs with h
  · subst h; simp
  · simp only [List.getD_eq_getElem?_getD]
    by_cases hlt : i < rows.length
    · rw [List.getElem?_append_left hlt]
    · rw [List.getElem?_append_right (by omega), List.getElem?_eq_none (by simp; omega), List.getElem?_eq_none (by omega)]

/-- Writing a row into the last page. -/
theorem rep_write {s : RSet} {rows : List Nat} (x : Nat) (hx : x ≠ 0) (lens : ∀ pg ∈ s.pages, pg.length = 63)
    (slot : ∀ p i, p < s.pages.length → i < 63 → (s.pages.getD p []).getD i 0 = rows.getD (63 * p + i) 0) (nz : 0 ∉ rows)
    (hne : s.pages ≠ []) (w : s.wpidx + 63 * s.pages.length = rows.length + 63) (w63 : s.wpidx < 63) (count : s.count = rows.length)
    (cur : ∀ p, s.rpage = some p → p < s.pages.length ∧ s.rpidx < 63) :
    Rep { s with pages := s.pages.dropLast ++ [(s.pages.getLastD []).set s.wpidx x], wpidx := s.wpidx + 1, count := s.count + 1 } (rows ++ [x]) := by
  obtain ⟨init, last, hs⟩ : ∃ init last, s.pages = init ++ [last] := ⟨_, _, (List.dropLast_append_getLast hne).symm⟩
  have hl : last.length = 63 := lens last (by rw [hs]; simp)
  simp only [hs, List.dropLast_concat, List.getLastD_concat, List.length_append, List.length_singleton] at *
  refine ⟨?_, ?_, ?_, ?_, ?_, ?_, ?_, ?_, by simp⟩
  · intro pg hpg
    simp only [List.mem_append, List.mem_singleton] at hpg
    rcases hpg with hpg | rfl
    · exact lens pg (by simp [hpg])
    · simp [hl]
  · intro p i hp hi
    simp only [List.length_append, List.length_singleton] at hp
    rw [getD_append_last]
    have hsl := slot p i hp hi
    by_cases hpl : p = init.length
    · subst hpl
      simp only [List.getD_append_right, Nat.le_refl, Nat.sub_self, List.getD_cons_zero] at hsl ⊢
      rw [List.getD_eq_getElem?_getD, List.getElem?_set]
      by_cases hiw : s.wpidx = i
      · rw [if_pos hiw, if_pos (by omega), if_pos (by omega)]
        rfl
      · rw [if_neg hiw, if_neg (by omega), ← List.getD_eq_getElem?_getD, hsl]
    · rw [if_neg (by omega)]
      rw [List.getD_append _ _ _ _ (by omega)] at hsl ⊢
      exact hsl
  · simp only [List.mem_append, List.mem_singleton, not_or]
    exact ⟨nz, fun e => hx e.symm⟩
  · simp only [List.length_append, List.length_singleton]; omega
  · simp only [List.length_append, List.length_singleton]; omega
  · intro _; simp
  · simp [count]
  · simpa using cur

theorem append_rep {mem : Mem} {s : RSet} {rows : List Nat} (h : Rep s rows) (x : Nat) (hx : x ≠ 0) :
    (∀ s', append mem s x = some s' → Rep s' (rows ++ [x])) ∧ (append mem s x = none → ∃ n, mem.page n = false) := by
  have hw := h.w
  unfold append
  by_cases h1 : s.wpidx ≥ pageSize
  · simp only [h1, if_true]
    simp only [pageSize] at h1
    by_cases hm : mem.page s.pages.length = true
    · simp only [hm, if_true, Option.map_some, Option.some.injEq, reduceCtorEq, false_imp_iff, and_true]
      intro s' hs
      subst hs
      refine rep_write (s := { s with pages := s.pages ++ [List.replicate pageSize 0], rpage := if s.pages = [] then some 0 else s.rpage, wpidx := 0 })
        x hx ?_ ?_ h.nz (by simp) ?_ (by simp) h.count ?_
      · intro pg hpg
        simp only [List.mem_append, List.mem_singleton] at hpg
        rcases hpg with hpg | rfl
        · exact h.lens pg hpg
        · simp [pageSize]
      · intro p i hp hi
        simp only [List.length_append, List.length_singleton] at hp ⊢
        by_cases hpl : p = s.pages.length
        · subst hpl
          simp only [List.getD_append_right, Nat.le_refl, Nat.sub_self, List.getD_cons_zero]
          rw [(getD_nz h.nz _).2 (by omega)]
          rw [List.getD_eq_getElem?_getD, List.getElem?_replicate, if_pos (by simpa [pageSize] using hi)]
          rfl
        · rw [List.getD_append _ _ _ _ (by omega)]
          exact h.slot p i (by omega) hi
      · simp only [List.length_append, List.length_singleton]; omega
      · intro p hp
        simp only [List.length_append, List.length_singleton] at hp ⊢
        split_ifs at hp with h0
        · cases hp
          refine ⟨by omega, ?_⟩
          rw [h.e0 h0]; omega
        · have := h.cur p hp; omega
    · simp only [hm, if_false, Option.map_none, reduceCtorEq, false_imp_iff, implies_true, true_and]
      intro _
      exact ⟨_, by simpa using hm⟩
  · simp only [h1, if_false, Option.map_some, Option.some.injEq, reduceCtorEq, false_imp_iff, and_true]
    simp only [pageSize] at h1
    intro s' hs
    subst hs
    have hne : s.pages ≠ [] := by
      intro e
      simp only [e, List.length_nil] at hw
      omega
    exact rep_write x hx h.lens h.slot h.nz hne hw.1 (by omega) h.count h.cur

theorem built_rep {s : RSet} {rows : List Nat} (h : Built s rows) : Rep s rows := by
  induction h with
  | create h => exact rep_create h
  | append x _ hx hs ih => exact (append_rep ih x hx).1 _ hs
  | fetch _ ih => exact rep_fetch ih
  | rewind _ ih => exact (rep_rewind ih).1

theorem rep_reads {s : RSet} {rows : List Nat} (h : Rep s rows) : Reads s rows := by
  intro n hn
  obtain ⟨h1, h2⟩ := rep_rewind h
  rw [readAll_eq n h1 h2 (by omega), List.drop_zero]

/-- C31: a result set delivers the rows that were appended to it, in order, however it was read in between, and counts them. -/
theorem C31_pages {s : RSet} {rows : List Nat} (h : Built s rows) : Reads s rows ∧ s.count = rows.length :=
  ⟨rep_reads (built_rep h), (built_rep h).count⟩

/-! ## Loops over rows -/

theorem fold_all {σ : Type} {body : σ → Nat → Option σ} {s : RSet} {rows : List Nat} (h : Rep s rows) (st : σ) :
    forRows body (s.count + 1) (rewind s) st = rows.foldlM body st := by
  obtain ⟨h1, h2⟩ := rep_rewind h
  rw [forRows_eq body _ st h1 h2 (by rw [h.count]; omega), List.drop_zero]

theorem search_all {s : RSet} {rows : List Nat} (h : Rep s rows) (x : Nat) :
    (search x (s.count + 1) (rewind s)).1 = decide (x ∈ rows) ∧ Rep (search x (s.count + 1) (rewind s)).2 rows := by
  obtain ⟨h1, h2⟩ := rep_rewind h
  have := search_eq x (s.count + 1) h1 h2 (by rw [h.count]; omega)
  rwa [List.drop_zero] at this

/-- Appending the rows that satisfy a test. -/
theorem fold_append {mem : Mem} (p : Nat → Bool) (l : List Nat) (hl : 0 ∉ l) : ∀ {r : RSet} {rows : List Nat}, Rep r rows →
    (∀ r', l.foldlM (fun r x => if p x then append mem r x else some r) r = some r' → Rep r' (rows ++ l.filter p)) ∧
    (l.foldlM (fun r x => if p x then append mem r x else some r) r = none → ∃ n, mem.page n = false) := by
  induction l with
  | nil => intro r rows h; simp only [List.foldlM_nil, List.filter_nil, List.append_nil]; exact ⟨fun r' e => by cases e; exact h, fun e => by cases e⟩
  | cons x l ih =>
    intro r rows h
    simp only [List.mem_cons, not_or] at hl
    rw [List.foldlM_cons]
    by_cases hp : p x = true
    · simp only [hp, if_true, List.filter_cons]
      obtain ⟨a1, a2⟩ := append_rep (mem := mem) h x (fun e => hl.1 e.symm)
      cases ha : append mem r x with
      | none => exact ⟨fun r' e => (by cases e), fun _ => a2 ha⟩
      | some r1 =>
        have := ih hl.2 (a1 r1 ha)
        rw [List.append_assoc] at this
        exact this
    · have hp' : p x = false := by simpa using hp
      simp only [hp', if_false, List.filter_cons, Bool.false_eq_true]
      exact ih hl.2 h

/-- Collecting the rows of a set in the hash set. -/
theorem fold_addkey {hash : Nat → Nat} (l : List Nat) (hl : 0 ∉ l) : ∀ {t : DHash} {S : List Nat}, Is hash t S →
    (∀ t', l.foldlM (fun t x => addkey hash t x) t = some t' → ∃ S', Is hash t' S' ∧ ∀ x, x ∈ S' ↔ x ∈ S ∨ x ∈ l) ∧
    (l.foldlM (fun t x => addkey hash t x) t = none → t.size < S.length + l.length) := by
  induction l with
  | nil => intro t S h; exact ⟨fun t' e => by cases e; exact ⟨S, h, by simp⟩, fun e => by cases e⟩
  | cons x l ih =>
    intro t S h
    simp only [List.mem_cons, not_or] at hl
    rw [List.foldlM_cons]
    rcases addkey_is h (k := x) (fun e => hl.1 e.symm) with ⟨h1, h2⟩ | ⟨_, h1, h2⟩ | ⟨_, t', h1, h2, h3⟩
    · rw [h2]
      obtain ⟨i1, i2⟩ := ih hl.2 h
      refine ⟨fun t' e => ?_, fun e => by have := i2 e; simp only [List.length_cons]; omega⟩
      obtain ⟨S', s1, s2⟩ := i1 t' e
      refine ⟨S', s1, fun y => ?_⟩
      rw [s2, List.mem_cons]
      constructor
      · rintro (e | e)
        · exact .inl e
        · exact .inr (.inr e)
      · rintro (e | rfl | e)
        · exact .inl e
        · exact .inl h1
        · exact .inr e
    · rw [h2]
      exact ⟨fun t' e => (by cases e), fun _ => by simp only [List.length_cons]; omega⟩
    · rw [h1]
      obtain ⟨i1, i2⟩ := ih hl.2 h3
      refine ⟨fun t' e => ?_, fun e => by have := i2 e; simp only [List.length_cons] at *; omega⟩
      obtain ⟨S', s1, s2⟩ := i1 t' e
      refine ⟨S', s1, fun y => ?_⟩
      rw [s2, List.mem_cons, List.mem_cons]
      constructor
      · rintro ((e | e) | e)
        · exact .inr (.inl e)
        · exact .inl e
        · exact .inr (.inr e)
      · rintro (e | e | e)
        · exact .inl (.inr e)
        · exact .inl (.inl e)
        · exact .inr e

/-- Why no result could be produced. -/
def Short (mem : Mem) (n : Nat) : Prop := mem.create = false ∨ mem.dhash = false ∨ (∃ p, mem.page p = false) ∨ 201326611 < n

theorem init_spec {mem : Bool} {n : Nat} (hash : Nat → Nat) :
    (∀ t, dhashInit mem n = some t → Is hash t [] ∧ (n ≤ 201326611 → n ≤ t.size)) ∧ (dhashInit mem n = none → mem = false ∨ 201326611 < n) := by
  unfold dhashInit
  by_cases hz : dhashSize n = 0
  · simp only [hz, bne_self_eq_false, Bool.and_false, Bool.false_eq_true, if_false, reduceCtorEq, false_imp_iff, implies_true, true_and, forall_const]
    refine .inr ?_
    by_contra hle
    exact dhashSize_zero n (by omega) hz
  · have hb : (dhashSize n != 0) = true := by simpa using hz
    cases mem with
    | false => simp
    | true =>
      simp only [hb, Bool.and_true, if_true, Option.some.injEq, reduceCtorEq, false_imp_iff, and_true]
      intro t e
      subst e
      exact ⟨is_init hash n hz, (dhashSize_spec n hz).2.2⟩

/-- The hash join. -/
theorem hashJoin {mem : Mem} {hash : Nat → Nat} {a b res : RSet} {ra rb : List Nat} (ha : Rep a ra) (hb : Rep b rb) (hr : Rep res []) :
    (∀ r, ((dhashInit mem.dhash a.count).bind fun t0 => (forRows (fun t x => addkey hash t x) (a.count + 1) (rewind a) t0).bind fun t =>
        forRows (fun r x => if haskey hash t x then append mem r x else some r) (b.count + 1) (rewind b) res) = some r →
      Rep r (rb.filter (fun x => decide (x ∈ ra)))) ∧
    (((dhashInit mem.dhash a.count).bind fun t0 => (forRows (fun t x => addkey hash t x) (a.count + 1) (rewind a) t0).bind fun t =>
        forRows (fun r x => if haskey hash t x then append mem r x else some r) (b.count + 1) (rewind b) res) = none →
      Short mem ra.length) := by
  obtain ⟨i1, i2⟩ := init_spec (mem := mem.dhash) (n := a.count) hash
  cases hi : dhashInit mem.dhash a.count with
  | none =>
    refine ⟨fun r e => (by cases e), fun _ => ?_⟩
    rcases i2 hi with h | h
    · exact .inr (.inl h)
    · exact .inr (.inr (.inr (by rw [← ha.count]; exact h)))
  | some t0 =>
    obtain ⟨j1, j2⟩ := i1 t0 hi
    rw [Option.bind_some, fold_all ha]
    obtain ⟨k1, k2⟩ := fold_addkey ra ha.nz j1
    cases hf : ra.foldlM (fun t x => addkey hash t x) t0 with
    | none =>
      refine ⟨fun r e => (by cases e), fun _ => ?_⟩
      have := k2 hf
      have hc := ha.count
      simp only [List.length_nil] at this
      refine .inr (.inr (.inr ?_))
      by_contra hle
      have := j2 (by omega)
      omega
    | some t =>
      obtain ⟨S, s1, s2⟩ := k1 t hf
      rw [Option.bind_some, fold_all hb]
      obtain ⟨l1, l2⟩ := fold_append (mem := mem) (fun x => haskey hash t x) rb hb.nz hr
      refine ⟨fun r e => ?_, fun e => .inr (.inr (.inl (l2 e)))⟩
      have := l1 r e
      rw [List.nil_append] at this
      have hq : rb.filter (fun x => haskey hash t x) = rb.filter (fun x => decide (x ∈ ra)) := by
        apply List.filter_congr
        intro x hx
        have hx0 : x ≠ 0 := by rintro rfl; exact hb.nz hx
        rw [Bool.eq_iff_iff, haskey_iff s1 hx0, s2, decide_eq_true_iff]
        simp
      rwa [hq] at this

/-- The nested loop. -/
theorem nestedLoop {mem : Mem} {ra rb : List Nat} {k : Nat} (hra : 0 ∉ ra) (hk : k = rb.length) : ∀ {b res : RSet} {rows : List Nat}, Rep b rb → Rep res rows →
    (∀ r, ra.foldlM (fun (st : RSet × RSet) x =>
        let y := search x (k + 1) (rewind st.1)
        if y.1 then (append mem st.2 x).map (fun r => (y.2, r)) else some (y.2, st.2)) (b, res) = some r →
      Rep r.2 (rows ++ ra.filter (fun x => decide (x ∈ rb)))) ∧
    (ra.foldlM (fun (st : RSet × RSet) x =>
        let y := search x (k + 1) (rewind st.1)
        if y.1 then (append mem st.2 x).map (fun r => (y.2, r)) else some (y.2, st.2)) (b, res) = none → ∃ p, mem.page p = false) := by
  induction ra with
  | nil =>
    intro b res rows hb hr
    simp only [List.foldlM_nil, List.filter_nil, List.append_nil]
    exact ⟨fun r' e => by cases e; exact hr, fun e => by cases e⟩
  | cons x l ih =>
    intro b res rows hb hr
    simp only [List.mem_cons, not_or] at hra
    rw [List.foldlM_cons]
    obtain ⟨s1, s2⟩ := search_all hb x
    rw [hb.count, ← hk] at s1 s2
    simp only [s1]
    by_cases hp : x ∈ rb
    · simp only [hp, decide_true, if_true, List.filter_cons]
      obtain ⟨a1, a2⟩ := append_rep (mem := mem) hr x (fun e => hra.1 e.symm)
      cases ha : append mem res x with
      | none => exact ⟨fun r' e => (by cases e), fun _ => a2 ha⟩
      | some r1 =>
        have := ih hra.2 s2 (a1 r1 ha)
        rw [List.append_assoc] at this
        exact this
    · simp only [hp, decide_false, if_false, List.filter_cons, Bool.false_eq_true]
      exact ih hra.2 s2 hr

theorem intersect_spec {mem : Mem} {hash : Nat → Nat} {a b : RSet} {ra rb : List Nat} (ha : Rep a ra) (hb : Rep b rb) :
    (∀ r, intersect mem hash a b = some r →
      Rep r (ra.filter (fun x => decide (x ∈ rb))) ∨ Rep r (rb.filter (fun x => decide (x ∈ ra)))) ∧
    (intersect mem hash a b = none → Short mem (min ra.length rb.length)) := by
  unfold intersect
  cases hc : create mem with
  | none =>
    refine ⟨fun r e => (by cases e), fun _ => .inl ?_⟩
    unfold create at hc
    split_ifs at hc with h
    simpa using h
  | some res =>
    have hr := rep_create hc
    rw [Option.bind_some]
    split_ifs with h1 h2
    · rw [fold_all ha]
      obtain ⟨n1, n2⟩ := nestedLoop (mem := mem) (k := b.count) ha.nz hb.count hb hr
      refine ⟨fun r e => ?_, fun e => ?_⟩
      · rw [Option.map_eq_some_iff] at e
        obtain ⟨y, e1, rfl⟩ := e
        have := n1 y e1
        rw [List.nil_append] at this
        exact .inl this
      · rw [Option.map_eq_none_iff] at e
        exact .inr (.inr (.inl (n2 e)))
    · obtain ⟨j1, j2⟩ := hashJoin (mem := mem) (hash := hash) hb ha hr
      refine ⟨fun r e => .inl (j1 r e), fun e => ?_⟩
      have := ha.count
      have := hb.count
      rw [show min ra.length rb.length = rb.length by omega]
      exact j2 e
    · obtain ⟨j1, j2⟩ := hashJoin (mem := mem) (hash := hash) ha hb hr
      refine ⟨fun r e => .inr (j1 r e), fun e => ?_⟩
      have := ha.count
      have := hb.count
      rw [show min ra.length rb.length = ra.length by omega]
      exact j2 e

/-- C31: the intersection of two result sets contains exactly the common rows, and each once if the sets have no repeated rows — whichever
strategy the sizes select, and for every hash function. -/
theorem C31_intersect {mem : Mem} {hash : Nat → Nat} {a b r : RSet} {ra rb : List Nat} (ha : Built a ra) (hb : Built b rb)
    (h : intersect mem hash a b = some r) :
    ∃ rows, Reads r rows ∧ r.count = rows.length ∧ (∀ x, x ∈ rows ↔ x ∈ ra ∧ x ∈ rb) ∧ (ra.Nodup → rb.Nodup → rows.Nodup) := by
  rcases (intersect_spec (built_rep ha) (built_rep hb)).1 r h with h1 | h1
  · refine ⟨_, rep_reads h1, h1.count, fun x => by simp, fun n1 _ => n1.filter _⟩
  · refine ⟨_, rep_reads h1, h1.count, fun x => by simp [and_comm], fun _ n2 => n2.filter _⟩

/-- C31: the intersection fails only for lack of memory or if both sets have more than 201326611 rows. -/
theorem C31_intersect_fails {mem : Mem} {hash : Nat → Nat} {a b : RSet} {ra rb : List Nat} (ha : Built a ra) (hb : Built b rb)
    (h : intersect mem hash a b = none) :
    mem.create = false ∨ mem.dhash = false ∨ (∃ p, mem.page p = false) ∨ (201326611 < ra.length ∧ 201326611 < rb.length) := by
  have := (intersect_spec (built_rep ha) (built_rep hb)).2 h
  rcases this with h | h | h | h
  · exact .inl h
  · exact .inr (.inl h)
  · exact .inr (.inr (.inl h))
  · exact .inr (.inr (.inr (by omega)))

/-- Keeping first occurrences, in the nested loop. -/
theorem uniqLoop {mem : Mem} {l : List Nat} (hl : 0 ∉ l) : ∀ {u : RSet} {U pre : List Nat}, Rep u U → U.Nodup → U.Sublist pre → (∀ x, x ∈ pre → x ∈ U) →
    (∀ r, l.foldlM (fun (u : RSet) x =>
        let y := search x (u.count + 1) (rewind u)
        if y.1 then some y.2 else append mem y.2 x) u = some r →
      ∃ V, Rep r V ∧ V.Nodup ∧ V.Sublist (pre ++ l) ∧ ∀ x, x ∈ pre ++ l → x ∈ V) ∧
    (l.foldlM (fun (u : RSet) x =>
        let y := search x (u.count + 1) (rewind u)
        if y.1 then some y.2 else append mem y.2 x) u = none → ∃ p, mem.page p = false) := by
  induction l with
  | nil =>
    intro u U pre hu h1 h2 h3
    simp only [List.foldlM_nil, List.append_nil]
    exact ⟨fun r e => by cases e; exact ⟨U, hu, h1, h2, h3⟩, fun e => by cases e⟩
  | cons x l ih =>
    intro u U pre hu h1 h2 h3
    simp only [List.mem_cons, not_or] at hl
    rw [List.foldlM_cons]
    obtain ⟨s1, s2⟩ := search_all hu x
    simp only [s1]
    by_cases hp : x ∈ U
    · simp only [hp, decide_true, if_true]
      have := ih (pre := pre ++ [x]) hl.2 s2 h1 (h2.trans (List.sublist_append_left ..)) (by
        intro y hy
        rcases List.mem_append.1 hy with hy | hy
        · exact h3 y hy
        · rw [List.mem_singleton.1 hy]; exact hp)
      rw [List.append_assoc] at this
      exact this
    · simp only [hp, decide_false, if_false, Bool.false_eq_true]
      obtain ⟨a1, a2⟩ := append_rep (mem := mem) s2 x (fun e => hl.1 e.symm)
      cases ha : append mem (search x (u.count + 1) (rewind u)).2 x with
      | none => exact ⟨fun r' e => (by cases e), fun _ => a2 ha⟩
      | some r1 =>
        have := ih (pre := pre ++ [x]) hl.2 (a1 r1 ha)
          (List.nodup_append.2 ⟨h1, by simp, by intro y hy z hz e; rw [List.mem_singleton] at hz; subst hz; subst e; exact hp hy⟩)
          (h2.append (List.Sublist.refl _)) (by
            intro y hy
            rcases List.mem_append.1 hy with hy | hy
            · exact List.mem_append_left _ (h3 y hy)
            · exact List.mem_append_right _ hy)
        rw [List.append_assoc] at this
        exact this

/-- Keeping first occurrences, with the hash set. -/
theorem uniqHash {mem : Mem} {hash : Nat → Nat} {l : List Nat} (hl : 0 ∉ l) : ∀ {t : DHash} {u : RSet} {U pre : List Nat}, Rep u U → Is hash t U.reverse →
    U.Sublist pre → (∀ x, x ∈ pre → x ∈ U) →
    (∀ r, l.foldlM (fun (st : DHash × RSet) x =>
          if haskey hash st.1 x then some st
          else (append mem st.2 x).bind fun r => (addkey hash st.1 x).map fun t => (t, r)) (t, u) = some r →
      ∃ V, Rep r.2 V ∧ V.Nodup ∧ V.Sublist (pre ++ l) ∧ ∀ x, x ∈ pre ++ l → x ∈ V) ∧
    (l.foldlM (fun (st : DHash × RSet) x =>
          if haskey hash st.1 x then some st
          else (append mem st.2 x).bind fun r => (addkey hash st.1 x).map fun t => (t, r)) (t, u) = none →
      (∃ p, mem.page p = false) ∨ t.size < U.length + l.length) := by
  induction l with
  | nil =>
    intro t u U pre hu h1 h2 h3
    simp only [List.foldlM_nil, List.append_nil]
    exact ⟨fun r e => by cases e; exact ⟨U, hu, List.nodup_reverse.1 h1.nodup, h2, h3⟩, fun e => by cases e⟩
  | cons x l ih =>
    intro t u U pre hu h1 h2 h3
    simp only [List.mem_cons, not_or] at hl
    rw [List.foldlM_cons]
    have hx0 : x ≠ 0 := fun e => hl.1 e.symm
    have hk := haskey_iff h1 hx0
    rw [List.mem_reverse] at hk
    by_cases hp : x ∈ U
    · simp only [hk.2 hp, if_true]
      have := ih (pre := pre ++ [x]) hl.2 hu h1 (h2.trans (List.sublist_append_left ..)) (by
        intro y hy
        rcases List.mem_append.1 hy with hy | hy
        · exact h3 y hy
        · rw [List.mem_singleton.1 hy]; exact hp)
      rw [List.append_assoc] at this
      refine ⟨this.1, fun e => ?_⟩
      rcases this.2 e with h | h
      · exact .inl h
      · refine .inr ?_; simp only [List.length_cons]; omega
    · have hkf : haskey hash t x = false := by
        cases hq : haskey hash t x with
        | false => rfl
        | true => exact absurd (hk.1 hq) hp
      simp only [hkf, if_false, Bool.false_eq_true]
      obtain ⟨a1, a2⟩ := append_rep (mem := mem) hu x hx0
      cases ha : append mem u x with
      | none => exact ⟨fun r' e => (by cases e), fun _ => .inl (a2 ha)⟩
      | some r1 =>
        rw [Option.bind_some]
        rcases addkey_is h1 hx0 with ⟨q1, _⟩ | ⟨_, q1, q2⟩ | ⟨_, t', q1, q2, q3⟩
        · exact absurd (List.mem_reverse.1 q1) hp
        · rw [q2]
          refine ⟨fun r' e => (by cases e), fun _ => .inr ?_⟩
          rw [List.length_reverse] at q1
          simp only [List.length_cons]
          omega
        · rw [q1]
          have := ih (t := t') (pre := pre ++ [x]) hl.2 (a1 r1 ha) (by rw [List.reverse_append]; exact q3)
            (h2.append (List.Sublist.refl _)) (by
              intro y hy
              rcases List.mem_append.1 hy with hy | hy
              · exact List.mem_append_left _ (h3 y hy)
              · exact List.mem_append_right _ hy)
          rw [List.append_assoc, q2] at this
          refine ⟨this.1, fun e => ?_⟩
          rcases this.2 e with h | h
          · exact .inl h
          · refine .inr ?_
            simp only [List.length_cons, List.length_append, List.length_nil] at h ⊢
            omega

theorem unique_spec {mem : Mem} {hash : Nat → Nat} {s : RSet} {rs : List Nat} (hs : Rep s rs) :
    (∀ r, unique mem hash s = some r → ∃ V, Rep r V ∧ V.Nodup ∧ V.Sublist rs ∧ ∀ x, x ∈ rs → x ∈ V) ∧
    (unique mem hash s = none → Short mem rs.length) := by
  unfold unique
  cases hc : create mem with
  | none =>
    refine ⟨fun r e => (by cases e), fun _ => .inl ?_⟩
    unfold create at hc
    split_ifs at hc with h
    simpa using h
  | some res =>
    have hr := rep_create hc
    rw [Option.bind_some]
    split_ifs with h1
    · rw [fold_all hs]
      obtain ⟨n1, n2⟩ := uniqLoop (mem := mem) hs.nz hr .nil (List.Sublist.refl _) (by simp)
      rw [List.nil_append] at n1
      exact ⟨n1, fun e => .inr (.inr (.inl (n2 e)))⟩
    · obtain ⟨i1, i2⟩ := init_spec (mem := mem.dhash) (n := s.count) hash
      cases hi : dhashInit mem.dhash s.count with
      | none =>
        refine ⟨fun r e => (by cases e), fun _ => ?_⟩
        rcases i2 hi with h | h
        · exact .inr (.inl h)
        · exact .inr (.inr (.inr (by rw [← hs.count]; exact h)))
      | some t0 =>
        obtain ⟨j1, j2⟩ := i1 t0 hi
        rw [Option.bind_some, fold_all hs]
        obtain ⟨n1, n2⟩ := uniqHash (mem := mem) (hash := hash) (t := t0) hs.nz hr j1 (List.Sublist.refl _) (by simp)
        rw [List.nil_append] at n1
        refine ⟨fun r e => ?_, fun e => ?_⟩
        · rw [Option.map_eq_some_iff] at e
          obtain ⟨y, e1, rfl⟩ := e
          exact n1 y e1
        · rw [Option.map_eq_none_iff] at e
          rcases n2 e with h | h
          · exact .inr (.inr (.inl h))
          · refine .inr (.inr (.inr ?_))
            have := hs.count
            simp only [List.length_nil] at h
            by_contra hle
            have := j2 (by omega)
            omega

/-- C31: duplicate removal keeps exactly one copy of each row, in the order of the first copies. -/
theorem C31_unique {mem : Mem} {hash : Nat → Nat} {s r : RSet} {rs : List Nat} (hs : Built s rs) (h : unique mem hash s = some r) :
    ∃ rows, Reads r rows ∧ r.count = rows.length ∧ rows.Nodup ∧ (∀ x, x ∈ rows ↔ x ∈ rs) ∧ rows.Sublist rs := by
  obtain ⟨V, v1, v2, v3, v4⟩ := (unique_spec (built_rep hs)).1 r h
  exact ⟨V, rep_reads v1, v1.count, v2, fun x => ⟨fun hx => v3.subset hx, v4 x⟩, v3⟩

/-- C31: duplicate removal fails only for lack of memory or if the set has more than 201326611 rows. -/
theorem C31_unique_fails {mem : Mem} {hash : Nat → Nat} {s : RSet} {rs : List Nat} (hs : Built s rs) (h : unique mem hash s = none) :
    mem.create = false ∨ mem.dhash = false ∨ (∃ p, mem.page p = false) ∨ 201326611 < rs.length :=
  (unique_spec (built_rep hs)).2 h

/-! ## Examples: both strategies are reached -/

/-- Enough memory. -/
def exMem : Mem := ⟨true, true, fun _ => true⟩

/-- Append a list of rows to an empty set. -/
def build (l : List Nat) : Option RSet := l.foldlM (fun s x => append exMem s x) ⟨[], none, 0, pageSize, 0⟩

theorem built_build (l : List Nat) (hl : 0 ∉ l) : ∀ {s : RSet} {rows : List Nat}, Built s rows →
    ∃ s', l.foldlM (fun s x => append exMem s x) s = some s' ∧ Built s' (rows ++ l) := by
  induction l with
  | nil => intro s rows h; exact ⟨s, rfl, by simpa using h⟩
  | cons x l ih =>
    intro s rows h
    simp only [List.mem_cons, not_or] at hl
    have hx : x ≠ 0 := fun e => hl.1 e.symm
    rw [List.foldlM_cons]
    cases ha : append exMem s x with
    | none =>
      obtain ⟨n, hn⟩ := (append_rep (built_rep h) x hx).2 ha
      simp [exMem] at hn
    | some s1 =>
      obtain ⟨s', h1, h2⟩ := ih hl.2 (.append x h hx ha)
      exact ⟨s', h1, by simpa using h2⟩

theorem ex_built (l : List Nat) (hl : 0 ∉ l) : ∃ s, build l = some s ∧ Built s l := by
  obtain ⟨s, h1, h2⟩ := built_build l hl (Built.create (mem := exMem) rfl)
  exact ⟨s, h1, by simpa using h2⟩

/-- The hash strategy on two sets of a hundred rows (two pages each): multiples of 16 and of 24. -/
example : ∃ a b r rows, Built a ((List.range 100).map (fun i => 16 * i + 16)) ∧ Built b ((List.range 100).map (fun i => 24 * i + 24)) ∧
    intersect exMem id a b = some r ∧ Reads r rows ∧ 48 ∈ rows ∧ 64 ∉ rows := by
  obtain ⟨a, _, ha⟩ := ex_built ((List.range 100).map (fun i => 16 * i + 16)) (by simp)
  obtain ⟨b, _, hb⟩ := ex_built ((List.range 100).map (fun i => 24 * i + 24)) (by simp)
  cases hr : intersect exMem id a b with
  | none =>
    rcases C31_intersect_fails ha hb hr with h | h | ⟨p, h⟩ | h
    · cases h
    · cases h
    · cases h
    · simp at h
  | some r =>
    obtain ⟨rows, h1, _, h2, _⟩ := C31_intersect ha hb hr
    exact ⟨a, b, r, rows, ha, hb, hr, h1, (h2 48).2 (by decide +kernel), fun h => absurd ((h2 64).1 h) (by decide +kernel)⟩

/-- The nested loop. -/
example : ∃ s r rows, Built s [8, 16, 8, 24, 16] ∧ unique exMem id s = some r ∧ Reads r rows ∧ rows.Nodup ∧ 16 ∈ rows := by
  obtain ⟨s, _, hs⟩ := ex_built [8, 16, 8, 24, 16] (by simp)
  cases hr : unique exMem id s with
  | none =>
    rcases C31_unique_fails hs hr with h | h | ⟨p, h⟩ | h
    · cases h
    · cases h
    · cases h
    · simp at h
  | some r =>
    obtain ⟨rows, h1, _, h2, h3, _⟩ := C31_unique hs hr
    exact ⟨s, r, rows, hs, hr, h1, h2, (h3 16).2 (by simp)⟩

end WG.ResultSet
