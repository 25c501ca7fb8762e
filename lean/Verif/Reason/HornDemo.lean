import Verif.Reason.Horn
import Verif.Reason.ResDemo

/-! # C70: a concrete case -/
namespace WG.Reason.ResDemo

theorem hashOK (h n o : Bool) : HashOK (cfg h n o) M := by
  intro c d e
  cases c <;> cases d <;> simp_all [Const.val, cfg]

theorem plusOK (h n o : Bool) : PlusOK (cfg h n o) M := fun c d e c' d' e' h => by cases h

theorem low_cs {cs : List Clause} (h : ∀ c : Clause, c ∈ cs → ∀ l : Lit, l ∈ c.lits → l.atom ∈ [pa, qa, pX, qX, rX, pY]) :
    ∀ c : Clause, c ∈ cs → c.Low := by
  intro c hc l hl v hv
  have := h c hc l hl
  simp only [List.mem_cons, List.not_mem_nil, or_false] at this
  rcases this with e | e | e | e | e | e <;> rw [e] at hv <;> simp [vars, varsL] at hv <;> omega

/-- p(a). q(a). not p(X), not q(X), r(X): the search ends without a proof, so there is a model. -/
example : ∃ I : Interp Tree, I.Std bin M ∧ ∀ c : Clause, c ∈ c2 → c.True M I :=
  C70_horn_partial bin rfl rfl (hashOK _ _ _) (plusOK _ _ _) blank fine2 plain2 (low_cs (by simp [Clause.lits]))
    (by simp [Clause.Horn, Clause.lits]) run2_bin

/-- The same without preference of negative literals. -/
example : run (cfg false false false) 14 M 100 c2 = .ok .finished := ends_ok (by decide +kernel)

/-- p(a). not p(X), q(X). not q(X): there is no model, and no run ends without a proof. -/
example (f : Nat) : run bin f M 100 c1 ≠ .ok .finished :=
  C70_unsat_partial bin rfl rfl (hashOK _ _ _) (plusOK _ _ _) blank fine1 (plain_cs (by simp [Clause.lits])) (low_cs (by simp [Clause.lits]))
    (by simp [Clause.Horn, Clause.lits]) (C69_proof bin blank fine1 run1_bin) f

end WG.Reason.ResDemo
