import Verif.Reason.ResSpec

/-! # Horn clauses, and what is wanted of hashes and sums -/
namespace WG.Reason

/-- At most one literal of the clause is positive. -/
def Clause.Horn (c : Clause) : Prop := (c.lits.filter fun l => !l.neg).length ≤ 1

/-- The numbers of the variables are below 4000, as those which the reasoner gives to the clauses that it keeps. -/
def Clause.Low (c : Clause) : Prop := ∀ l : Lit, l ∈ c.lits → ∀ v, v ∈ vars l.atom → v < 4000

/-- Words for the same value have the same hash. -/
def HashOK (cfg : Cfg) (M : Mem) : Prop := ∀ c d : Const, c.val M = d.val M → cfg.hash (.con c) = cfg.hash (.con d)

/-- The sum depends on the values only. -/
def PlusOK (cfg : Cfg) (M : Mem) : Prop := ∀ c d e c' d' e' : Const, cfg.plus c d = some e → cfg.plus c' d' = some e' →
  c.val M = c'.val M → d.val M = d'.val M → e.val M = e'.val M

end WG.Reason
