import Verif.Reason.Eval
import Verif.Reason.Resolve

/-!
# What it means that clauses have no model
-/
namespace WG.Reason

/-- An interpretation: things for the values and for the terms, and which of the things are true, as atoms are terms. -/
structure Interp (D : Type) where
  alg : Alg D
  holds : D → Prop

/-- What an interpretation must do with the terms that the reasoner computes: `true` is true and `false` is not; `x = x` is `true`, an
equation between different data is `false`, and sums are what they are. -/
structure Interp.Std {D : Type} (cfg : Cfg) (M : Mem) (I : Interp D) : Prop where
  yes : I.holds (I.alg.con (aTrue.val M))
  no : ¬ I.holds (I.alg.con (aFalse.val M))
  equal : ∀ d ds, I.alg.app (I.alg.con (aEqual.val M) :: d :: d :: ds) = I.alg.con (aTrue.val M)
  differ : ∀ (c d : Const) (ds : List D), c.opaque cfg = false → d.opaque cfg = false → c.val M ≠ d.val M →
    I.alg.app (I.alg.con (aEqual.val M) :: I.alg.con (c.val M) :: I.alg.con (d.val M) :: ds) = I.alg.con (aFalse.val M)
  sum : ∀ (c d e : Const) (ds : List D), cfg.plus c d = some e →
    I.alg.app (I.alg.con (aPlus.val M) :: I.alg.con (c.val M) :: I.alg.con (d.val M) :: ds) = I.alg.con (e.val M)

/-- A literal is true, for these values of its variables. -/
def Lit.True {D : Type} (M : Mem) (I : Interp D) (ρ : Nat → D) (l : Lit) : Prop :=
  if l.neg then ¬ I.holds (ev M I.alg ρ l.atom) else I.holds (ev M I.alg ρ l.atom)

/-- A clause is true: whatever the values of its variables, one of its literals is. -/
def Clause.True {D : Type} (M : Mem) (I : Interp D) (c : Clause) : Prop := ∀ ρ : Nat → D, ∃ l : Lit, l ∈ c.lits ∧ l.True M I ρ

/-- The clause is true whenever the clauses `cs` are (`c` in the memory `M'`, the others in `M`). -/
def Follows (cfg : Cfg) (M : Mem) (cs : List Clause) (M' : Mem) (c : Clause) : Prop :=
  ∀ (D : Type) (I : Interp D), I.Std cfg M → (∀ d : Clause, d ∈ cs → d.True M I) → c.True M' I

/-- The clauses cannot all be true. -/
def Unsat (cfg : Cfg) (M : Mem) (cs : List Clause) : Prop :=
  ∀ (D : Type) (I : Interp D), I.Std cfg M → ¬ ∀ d : Clause, d ∈ cs → d.True M I

/-- There is nothing yet at the places from `next` on. -/
def Blank (M : Mem) (next : Nat) : Prop := ∀ a, next ≤ a → M.parts a = [.nul]

/-- An atom without function terms: a predicate that is nothing the reasoner computes, with variables and constants. -/
inductive Plain : Term → Prop
  | app {a : Nat} {c : Const} {ts : List Term} : c ≠ aPlus → c ≠ aEqual → (∀ t : Term, t ∈ ts → t.isRec = false) →
      Plain (.app a (.con c :: ts))

/-- A clause with literals, all of them plain. -/
def Clause.Plain (c : Clause) : Prop := c.lits ≠ [] ∧ ∀ l : Lit, l ∈ c.lits → Reason.Plain l.atom

end WG.Reason
