import Verif.Reason.Props

/-! # Unification, matching and subsumption: concrete cases, and what goes wrong -/
namespace WG.Reason.Demo

/-- Names of predicates, functions and constants: symbols are long strings; here at the places 8, 16, … -/
abbrev p : Term := .con (.lstr 8)
abbrev q : Term := .con (.lstr 16)
abbrev f : Term := .con (.lstr 24)
abbrev a : Term := .con (.lstr 32)
abbrev b : Term := .con (.lstr 40)
abbrev X : Term := .var 0
abbrev Y : Term := .var 1

/-- A memory with these records. -/
def M : Mem := ⟨fun _ => 0, fun _ => 0, fun _ => [], fun o => match o with
  | 1 => [f, Y]
  | 2 => [p, X, .app 1 [f, Y]]
  | 3 => [f, b]
  | 4 => [p, a, .app 3 [f, b]]
  | 5 => [p, Y, Y]
  | 6 => [p, a, b]
  | 7 => [p, X, Y]
  | 8 => [p, b, a]
  | 9 => [p, .app 3 [f, b], a]
  | _ => []⟩

abbrev fY : Term := .app 1 [f, Y]
abbrev pXfY : Term := .app 2 [p, X, fY]
abbrev fb : Term := .app 3 [f, b]
abbrev pafb : Term := .app 4 [p, a, fb]
abbrev pYY : Term := .app 5 [p, Y, Y]
abbrev pab : Term := .app 6 [p, a, b]
abbrev pXY : Term := .app 7 [p, X, Y]
abbrev pba : Term := .app 8 [p, b, a]
abbrev pfba : Term := .app 9 [p, fb, a]

theorem fine_parts {o : Nat} {ts : List Term} (h : M.parts o = ts) (ht : ∀ t : Term, t ∈ ts → Fine M t) : Fine M (.app o ts) := .app h ht

theorem fine_X : Fine M X := .var (by decide +kernel)
theorem fine_Y : Fine M Y := .var (by decide +kernel)
theorem fine_fY : Fine M fY := by
  refine .app rfl fun t ht => ?_
  simp only [List.mem_cons, List.not_mem_nil, or_false] at ht
  rcases ht with rfl | rfl
  exacts [.con _, fine_Y]
theorem fine_pXfY : Fine M pXfY := by
  refine .app rfl fun t ht => ?_
  simp only [List.mem_cons, List.not_mem_nil, or_false] at ht
  rcases ht with rfl | rfl | rfl
  exacts [.con _, fine_X, fine_fY]
theorem fine_fb : Fine M fb := by
  refine .app rfl fun t ht => ?_
  simp only [List.mem_cons, List.not_mem_nil, or_false] at ht
  rcases ht with rfl | rfl
  exacts [.con _, .con _]
theorem fine_pafb : Fine M pafb := by
  refine .app rfl fun t ht => ?_
  simp only [List.mem_cons, List.not_mem_nil, or_false] at ht
  rcases ht with rfl | rfl | rfl
  exacts [.con _, .con _, fine_fb]
theorem fine_pYY : Fine M pYY := by
  refine .app rfl fun t ht => ?_
  simp only [List.mem_cons, List.not_mem_nil, or_false] at ht
  rcases ht with rfl | rfl | rfl
  exacts [.con _, fine_Y, fine_Y]
theorem fine_pab : Fine M pab := by
  refine .app rfl fun t ht => ?_
  simp only [List.mem_cons, List.not_mem_nil, or_false] at ht
  rcases ht with rfl | rfl | rfl
  exacts [.con _, .con _, .con _]
theorem fine_pba : Fine M pba := by
  refine .app rfl fun t ht => ?_
  simp only [List.mem_cons, List.not_mem_nil, or_false] at ht
  rcases ht with rfl | rfl | rfl
  exacts [.con _, .con _, .con _]
theorem fine_pXY : Fine M pXY := by
  refine .app rfl fun t ht => ?_
  simp only [List.mem_cons, List.not_mem_nil, or_false] at ht
  rcases ht with rfl | rfl | rfl
  exacts [.con _, fine_X, fine_Y]
theorem fine_pfba : Fine M pfba := by
  refine .app rfl fun t ht => ?_
  simp only [List.mem_cons, List.not_mem_nil, or_false] at ht
  rcases ht with rfl | rfl | rfl
  exacts [.con _, fine_fb, .con _]

/-- C66: p(X, f(Y)) and p(a, f(b)) are unified: X is a, Y is b. -/
example : ∃ s, unify M 9 St.clear pXfY pafb = .ok (true, s) ∧ s.bank 0 = some a ∧ s.bank 1 = some b ∧ s.stack = [1, 0] :=
  ⟨_, rfl, rfl, rfl, rfl⟩
example := C66_unify M fine_pXfY fine_pafb
/-- p(X, f(Y)) and p(Y, Y) are not: Y would have to be f(Y). -/
example : ∃ s, unify M 9 St.clear pXfY pYY = .ok (false, s) ∧ s.bank 0 = some Y := ⟨_, rfl, rfl⟩
example : ¬ ∃ θ, Unifies M θ pXfY pYY := by
  obtain ⟨b, s, ⟨N, hN⟩, _, hb, _⟩ := C66_unify M fine_pXfY fine_pYY
  rw [← hb]
  have := hN (N + 9) (by omega)
  intro e
  subst e
  obtain ⟨c, s', ⟨N', hN'⟩, _, hc, _⟩ := C66_unify M fine_pXfY fine_pYY
  obtain ⟨θ, hθ⟩ := hb.1 rfl
  simp only [Unifies, tree, treeL, Tree.subst, Tree.substL, Tree.app.injEq, List.cons.injEq] at hθ
  have h1 := hθ.2.2.1
  have := congrArg sizeOf h1
  simp at this
  omega
/-- C66: from a state with bindings. -/
example : ∃ s s', unify M 9 St.clear pXfY pafb = .ok (true, s) ∧ Inv M s ∧ unify M 9 s pXY pab = .ok (true, s') := by
  refine ⟨_, _, rfl, ?_, rfl⟩
  exact (unify_post 9 _ _ _ _ _ (inv_clear M) fine_pXfY fine_pafb rfl).inv

/-- C66: NULL inside of a term is taken for a record: reading behind the address 0. -/
theorem C66_null_counterexample : ∀ k, 1 ≤ k → unify M (k + 1) St.clear (.app 30 [p, .nul]) (.app 31 [p, fb]) = .bad := by
  intro k hk
  obtain ⟨k, rfl⟩ : ∃ j, k = j + 1 := ⟨k - 1, by omega⟩
  rfl

/-- C66: there is a place for 5000 variables only; the numbers are not checked. -/
theorem C66_var_counterexample : ∀ k, unify M (k + 3) St.clear (.app 30 [p, .var 5000, a]) pab = .bad := by
  intro k
  rfl

/-- C67: equal terms at different places, and a match. -/
example : equalTerm M pab (.app 60 [p, a, b]) = .ok true := rfl
example : ∃ s, matchTerm M pXY pab St.clear = .ok (true, s) ∧ s.bank 0 = some a ∧ s.bank 1 = some b := ⟨_, rfl, rfl, rfl⟩
example : ∃ s, matchTerm M pYY pab St.clear = .ok (false, s) := ⟨_, rfl⟩
example := C67_match M fine_pXY fine_pab
example := C67_flat M fine_pXY fine_pab (.app (by simp [Term.isRec])) (.app (by simp [Term.isRec]))

/-- C67: p(f(b), a) against p(b, a): the symbol b is taken for a record. -/
theorem C67_equal_counterexample : Fine M pfba ∧ Fine M pba ∧ tree M pfba ≠ tree M pba ∧ equalTerm M pfba pba = .bad :=
  ⟨fine_pfba, fine_pba, by simp [tree, treeL], rfl⟩

/-- C67: p(b, a) matched with p(f(b), a): the symbol b is taken for a record. -/
theorem C67_match_counterexample : Fine M pba ∧ Fine M pfba ∧ matchTerm M pba pfba St.clear = .bad := ⟨fine_pba, fine_pfba, rfl⟩

/-- C68: p(X, Y), not p(b, a) subsumes not p(b, a), p(a, b). -/
abbrev c1 : Clause := .rule [⟨false, pXY⟩, ⟨true, pba⟩]
abbrev c2 : Clause := .rule [⟨true, pba⟩, ⟨false, pab⟩]
example : ∃ s, subsume M c1 c2 St.clear = .ok (true, s) := ⟨_, rfl⟩
theorem fine_c1 : c1.Fine M := by
  intro l hl
  simp only [Clause.lits, List.mem_cons, List.not_mem_nil, or_false] at hl
  rcases hl with rfl | rfl
  exacts [fine_pXY, fine_pba]
theorem fine_c2 : c2.Fine M := by
  intro l hl
  simp only [Clause.lits, List.mem_cons, List.not_mem_nil, or_false] at hl
  rcases hl with rfl | rfl
  exacts [fine_pba, fine_pab]
theorem flat_c1 : c1.Flat := by
  intro l hl
  simp only [Clause.lits, List.mem_cons, List.not_mem_nil, or_false] at hl
  rcases hl with rfl | rfl <;> exact .app (by simp [Term.isRec])
theorem flat_c2 : c2.Flat := by
  intro l hl
  simp only [Clause.lits, List.mem_cons, List.not_mem_nil, or_false] at hl
  rcases hl with rfl | rfl <;> exact .app (by simp [Term.isRec])
example := C68_subsume_flat M fine_c1 fine_c2 flat_c1 flat_c2 trivial (by simp [Clause.lits])
example : Subsumes M c1 c2 := by
  obtain ⟨b, h, hb⟩ := C68_subsume_flat M fine_c1 fine_c2 flat_c1 flat_c2 trivial (by simp [Clause.lits])
  have e : subsume M c1 c2 St.clear = .ok (true, St.clear) := by
    have : ∃ s, subsume M c1 c2 St.clear = .ok (true, s) := ⟨_, rfl⟩
    obtain ⟨s, hs⟩ := this
    rw [hs] at h ⊢
    injection h with h; injection h with _ h; rw [h]
  rw [e] at h
  injection h with h; injection h with h _
  exact hb.1 h.symm
/-- The other way round it does not. -/
example : ∃ s, subsume M c2 c1 St.clear = .ok (false, s) := ⟨_, rfl⟩
/-- Two literals are not mapped to the same one. -/
example : ∃ s, subsume M (.rule [⟨false, pXY⟩, ⟨false, pYY⟩]) (.rule [⟨false, pab⟩, ⟨false, pba⟩]) St.clear = .ok (false, s) := ⟨_, rfl⟩
example : ∃ s, givenSubsumed M c2 [.rule [⟨false, pYY⟩], c1] St.clear = .ok (true, s) := ⟨_, rfl⟩

/-- C68: the test can read what it must not: the unit clause p(b, a), kept as a rule, against the clause p(f(b), a). -/
theorem C68_counterexample : subsume M (.rule [⟨false, pba⟩]) (.rule [⟨false, pfba⟩]) St.clear = .bad ∧
    Clause.Fine M (.rule [⟨false, pba⟩]) ∧ Clause.Fine M (.rule [⟨false, pfba⟩]) := by
  refine ⟨rfl, fun l hl => ?_, fun l hl => ?_⟩
  · simp only [Clause.lits, List.mem_singleton] at hl
    subst hl; exact fine_pba
  · simp only [Clause.lits, List.mem_singleton] at hl
    subst hl; exact fine_pfba

/-- C68: the hypothesis that facts have no variables: a fact is compared, not matched. -/
example : ∃ s, subsume M (.fact pXY) (.fact pab) St.clear = .ok (false, s) := ⟨_, rfl⟩

end WG.Reason.Demo
