import Verif.Reason.Model

/-!
# What terms mean

Terms as trees: a variable, a value, or a list of parts. Where a record lies, and in which cell a value is kept, does not matter.
-/
namespace WG.Reason

inductive Tree
  | var (n : Nat) | con (v : Val) | app (ts : List Tree)

mutual
/-- Put the trees `θ n` in the places of the variables `n`. -/
def Tree.subst (θ : Nat → Tree) : Tree → Tree
  | .var n => θ n
  | .con v => .con v
  | .app ts => .app (Tree.substL θ ts)
def Tree.substL (θ : Nat → Tree) : List Tree → List Tree
  | [] => []
  | t :: ts => t.subst θ :: Tree.substL θ ts
end

mutual
/-- The tree of a word. -/
def tree (M : Mem) : Term → Tree
  | .var n => .var n
  | .con c => .con (c.val M)
  | .nul => .con .null
  | .app _ ts => .app (treeL M ts)
def treeL (M : Mem) : List Term → List Tree
  | [] => []
  | t :: ts => tree M t :: treeL M ts
end

/-- A word as the reasoner wants it: the records are those of the memory, variables have numbers for which there is a place, and there is
no NULL. -/
inductive Fine (M : Mem) : Term → Prop
  | var {n : Nat} : n < NV → Fine M (.var n)
  | con (c : Const) : Fine M (.con c)
  | app {a : Nat} {ts : List Term} : M.parts a = ts → (∀ t : Term, t ∈ ts → Fine M t) → Fine M (.app a ts)

/-- The substitution `θ` makes the two terms the same. -/
def Unifies (M : Mem) (θ : Nat → Tree) (x y : Term) : Prop := (tree M x).subst θ = (tree M y).subst θ

/-- `θ` agrees with the bindings: a variable with a binding stands for what it is bound to. -/
def Agrees (M : Mem) (θ : Nat → Tree) (s : St) : Prop := ∀ n t, s.bank n = some t → θ n = (tree M t).subst θ

/-- A call that ends, with this result, however much further the calls could be nested. -/
def Ends {α : Type} (call : Nat → Res α) (r : α) : Prop := ∃ N, ∀ f, N ≤ f → call f = .ok r

end WG.Reason
