import Verif.Reason.ResProps

/-! # The search: concrete cases, and what goes wrong -/
namespace WG.Reason.ResDemo

/-- Names of predicates and a constant. -/
abbrev p : Term := .con (.lstr 8)
abbrev q : Term := .con (.lstr 16)
abbrev r : Term := .con (.lstr 24)
abbrev a : Term := .con (.lstr 32)
abbrev X : Term := .var 0
abbrev Y : Term := .var 1

/-- Atoms of the clauses below. -/
def parts : Nat → List Term
  | 1 => [p, a]
  | 2 => [q, a]
  | 3 => [p, X]
  | 4 => [q, X]
  | 5 => [r, X]
  | 6 => [p, Y]
  | _ => [.nul]
def M : Mem := ⟨fun _ => 0, fun _ => 0, fun _ => [], parts⟩
abbrev pa : Term := .app 1 [p, a]
abbrev qa : Term := .app 2 [q, a]
abbrev pX : Term := .app 3 [p, X]
abbrev qX : Term := .app 4 [q, X]
abbrev rX : Term := .app 5 [r, X]
abbrev pY : Term := .app 6 [p, Y]

/-- The settings: hyperresolution, preference of negative and of positive literals. The program starts with 1, 1, 0. -/
def cfg (hyper negpref pospref : Bool) : Cfg :=
  ⟨hyper, negpref, pospref, true, fun t => match t with | .con (.lstr o) => o | _ => 0, fun _ _ => none, fun _ => false, fun _ => true⟩
abbrev std : Cfg := cfg true true false
/-- Binary resolution. -/
abbrev bin : Cfg := cfg false true false

theorem blank : Blank M 100 := by
  intro a ha
  show parts a = _
  unfold parts
  split <;> first | omega | rfl

theorem fine_of {t : Term} (h : t ∈ [pa, qa, pX, qX, rX, pY]) : Fine M t := by
  have one : ∀ o x y, M.parts o = [.con x, y] → Fine M y → Fine M (.app o [.con x, y]) := by
    intro o x y ho hy
    refine .app ho fun t ht => ?_
    simp only [List.mem_cons, List.not_mem_nil, or_false] at ht
    rcases ht with rfl | rfl
    exacts [.con _, hy]
  have hX : Fine M X := .var (by decide +kernel)
  have hY : Fine M Y := .var (by decide +kernel)
  simp only [List.mem_cons, List.not_mem_nil, or_false] at h
  rcases h with rfl | rfl | rfl | rfl | rfl | rfl
  exacts [one _ _ _ rfl (.con _), one _ _ _ rfl (.con _), one _ _ _ rfl hX, one _ _ _ rfl hX, one _ _ _ rfl hX, one _ _ _ rfl hY]

theorem fine_cs {cs : List Clause} (h : ∀ c : Clause, c ∈ cs → ∀ l : Lit, l ∈ c.lits → l.atom ∈ [pa, qa, pX, qX, rX, pY]) :
    ∀ c : Clause, c ∈ cs → c.Fine M := fun c hc l hl => fine_of (h c hc l hl)

/-- p(a). not p(X), q(X). not q(X). -/
abbrev c1 : List Clause := [.fact pa, .rule [⟨true, pX⟩, ⟨false, qX⟩], .rule [⟨true, qX⟩]]
/-- p(a). q(a). not p(X), not q(X), r(X). -/
abbrev c2 : List Clause := [.fact pa, .fact qa, .rule [⟨true, pX⟩, ⟨true, qX⟩, ⟨false, rX⟩]]
/-- p(X), p(Y). not p(X), not p(Y). -/
abbrev c3 : List Clause := [.rule [⟨false, pX⟩, ⟨false, pY⟩], .rule [⟨true, pX⟩, ⟨true, pY⟩]]

theorem fine1 : ∀ c : Clause, c ∈ c1 → c.Fine M := fine_cs (by simp [Clause.lits])
theorem fine2 : ∀ c : Clause, c ∈ c2 → c.Fine M := fine_cs (by simp [Clause.lits])
theorem fine3 : ∀ c : Clause, c ∈ c3 → c.Fine M := fine_cs (by simp [Clause.lits])

/-- How the run ends. -/
def ends : Res Verdict → Option (Option Verdict)
  | .out => none
  | .bad => some none
  | .ok v => some (some v)
theorem ends_ok {x : Res Verdict} {v : Verdict} (h : ends x = some (some v)) : x = .ok v := by
  cases x <;> simp_all [ends]
theorem ends_bad {x : Res Verdict} (h : ends x = some none) : x = .bad := by
  cases x <;> simp_all [ends]

/-- C69: a proof is found, with the standard settings and with binary resolution, and so there is no model. -/
theorem run1 : run std 12 M 100 c1 = .ok .proof := ends_ok (by decide +kernel)
theorem run1_bin : run bin 12 M 100 c1 = .ok .proof := ends_ok (by decide +kernel)
example : Unsat std M c1 := C69_proof std blank fine1 run1
/-- Without room for the records the search is given up. -/
example : run { std with room := fun n => decide (n < 102) } 12 M 100 c1 = .ok .stopped := ends_ok (by decide +kernel)

/-- An interpretation: all atoms but equations are true. -/
def I : Interp Val := ⟨⟨id, fun ds => match ds with
  | e :: x :: y :: _ => if e = .imm 2399 then (if x = y then .imm 351 else .imm 95) else .imm 351
  | _ => .imm 351⟩, fun d => d = .imm 351⟩
theorem std_I (h n o : Bool) : I.Std (cfg h n o) M :=
  ⟨rfl, by simp [I, aFalse, Const.val], fun d ds => by simp [I, aEqual, aTrue, Const.val],
    fun c d ds _ _ hne => by simp [I, aEqual, aFalse, Const.val] at hne ⊢; exact fun e => absurd e hne, fun c d e ds h => by cases h⟩
theorem true_c2 : ∀ c : Clause, c ∈ c2 → c.True M I := by
  intro c hc ρ
  simp only [List.mem_cons, List.not_mem_nil, or_false] at hc
  rcases hc with rfl | rfl | rfl
  · exact ⟨⟨false, pa⟩, by simp [Clause.lits], rfl⟩
  · exact ⟨⟨false, qa⟩, by simp [Clause.lits], rfl⟩
  · exact ⟨⟨false, rX⟩, by simp [Clause.lits], rfl⟩
/-- C69: clauses with a model; the search ends without a proof, after deriving r(a). -/
example (f : Nat) : run bin f M 100 c2 ≠ .ok .proof := C69_model bin blank fine2 (std_I _ _ _) true_c2 f
theorem run2_bin : run bin 12 M 100 c2 = .ok .finished := ends_ok (by decide +kernel)
example : ∃ s, genloop bin 12 (.init M 100 c2) = .ok (.finished, s) := by
  have h := run2_bin
  rw [run] at h
  obtain ⟨⟨v, s⟩, hg, h⟩ := bind_eq_ok h
  simp only at h
  split at h
  · cases h
  · injection h with h; subst h
    exact ⟨s, hg⟩

/-- There is no model for p(X), p(Y). not p(X), not p(Y). -/
theorem unsat3 (cfg : Cfg) : Unsat cfg M c3 := by
  intro D I _ h
  have h1 := h (.rule [⟨false, pX⟩, ⟨false, pY⟩]) (by simp) fun _ => I.alg.con .null
  have h2 := h (.rule [⟨true, pX⟩, ⟨true, pY⟩]) (by simp) fun _ => I.alg.con .null
  simp only [Clause.lits, List.mem_cons, List.not_mem_nil, or_false, exists_eq_or_imp, exists_eq_left, Lit.True, if_true, if_false,
    Bool.false_eq_true, ev, evL, or_self] at h1 h2
  exact h2 h1

/-- C70: the search ends without a proof although there is no model: literals of one clause are never made the same (there is no
factoring). Without hyperresolution, otherwise with the standard settings. -/
theorem C70_counterexample : run bin 12 M 100 c3 = .ok .finished ∧ Unsat bin M c3 ∧ ∀ c : Clause, c ∈ c3 → c.Fine M :=
  ⟨ends_ok (by decide +kernel), unsat3 _, fine3⟩

/-- C71: with the standard settings, p(a). q(a). not p(X), not q(X), r(X). makes the reasoner use a buffer it has freed. -/
theorem C71_counterexample : run std 12 M 100 c2 = .bad ∧ ∀ c : Clause, c ∈ c2 → c.Fine M := ⟨ends_bad (by decide +kernel), fine2⟩

/-- C71: the hypotheses. -/
theorem plain_cs {cs : List Clause} (h : ∀ c : Clause, c ∈ cs → c.lits ≠ [] ∧ ∀ l : Lit, l ∈ c.lits → l.atom ∈ [pa, qa, pX, qX, rX, pY]) :
    ∀ c : Clause, c ∈ cs → c.Plain := by
  intro c hc
  refine ⟨(h c hc).1, fun l hl => ?_⟩
  have := (h c hc).2 l hl
  simp only [List.mem_cons, List.not_mem_nil, or_false] at this
  rcases this with e | e | e | e | e | e <;> rw [e] <;> exact .app (by decide) (by decide) (by simp [Term.isRec])
theorem plain2 : ∀ c : Clause, c ∈ c2 → c.Plain := plain_cs (by simp [Clause.lits])
theorem plain3 : ∀ c : Clause, c ∈ c3 → c.Plain := plain_cs (by simp [Clause.lits])
example (f : Nat) : run bin f M 100 c2 ≠ .bad := C71_safe_partial bin rfl blank fine2 plain2 f
example (f : Nat) : run bin f M 100 c3 ≠ .bad := C71_safe_partial bin rfl blank fine3 plain3 f

end WG.Reason.ResDemo
