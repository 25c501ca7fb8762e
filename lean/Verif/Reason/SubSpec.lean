import Verif.Reason.Clause
import Verif.Reason.Spec
import Mathlib.Data.List.Forall2

/-! # What subsumption means -/
namespace WG.Reason

/-- Under `θ` the literal is the one with number `j` in the list: the same sign, the same atom. -/
def Maps (M : Mem) (θ : Nat → Tree) (cl : List Lit) (l : Lit) (j : Nat) : Prop :=
  ∃ l2, cl[j]? = some l2 ∧ l.neg = l2.neg ∧ (tree M l.atom).subst θ = tree M l2.atom

/-- One clause subsumes another: there is a substitution under which each of its literals is one of the other's, no two of them the same
one. -/
def Subsumes (M : Mem) (c1 c2 : Clause) : Prop :=
  ∃ (θ : Nat → Tree) (js : List Nat), List.Forall₂ (Maps M θ c2.lits) c1.lits js ∧ js.Nodup

/-- The words of the clause are fine. -/
def Clause.Fine (M : Mem) (c : Clause) : Prop := ∀ l : Lit, l ∈ c.lits → Reason.Fine M l.atom

mutual
/-- Without variables. -/
def Tree.Ground : Tree → Prop
  | .var _ => False
  | .con _ => True
  | .app ts => Tree.GroundL ts
def Tree.GroundL : List Tree → Prop
  | [] => True
  | t :: ts => t.Ground ∧ Tree.GroundL ts
end

/-- If the clause is a fact, it has no variables: the reasoner stores clauses with variables as rules (Reasoner/derive.c lines 219-253,
Parser/dbparse.c lines 281-304). -/
def Clause.FactGround (M : Mem) : Clause → Prop
  | .fact a => (tree M a).Ground
  | .rule _ => True

/-- Atoms without function terms: the parts of an atom are variables and constants. -/
inductive Flat : Term → Prop
  | app {a : Nat} {ts : List Term} : (∀ t : Term, t ∈ ts → t.isRec = false) → Flat (.app a ts)

def Clause.Flat (c : Clause) : Prop := ∀ l : Lit, l ∈ c.lits → Reason.Flat l.atom

end WG.Reason
