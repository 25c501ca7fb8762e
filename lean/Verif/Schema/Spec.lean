import Verif.Schema.Model
/-! # What a document consists of -/
namespace WG.Recs

/-- `Links T a b n`: following references through `n` fields leads from record `a` to record `b`. -/
inductive Links (T : Table) (a : Word) : Word → Nat → Prop
  | here : Links T a a 0
  | step {y x : Word} {n : Nat} {fs : List Word} : Links T a y n → T y = some fs → x ∈ fs → isRecVal x = true → Links T a x (n + 1)

/-- `b` belongs to what is stored under `a`. -/
def Below (T : Table) (a b : Word) : Prop := ∃ n, Links T a b n

/-- Field `i` of record `p` refers to `x`. -/
def RefersAt (T : Table) (p : Word) (i : Nat) (x : Word) : Prop := ∃ fs, T p = some fs ∧ fs[i]? = some x

/-- The records under `a` form a tree: nothing refers to the root, and every other record is referred to from one field only. -/
structure TreeShaped (T : Table) (a : Word) : Prop where
  root : ∀ p i, ¬ RefersAt T p i a
  single : ∀ x, Below T a x → ∀ p i q j, RefersAt T p i x → RefersAt T q j x → p = q ∧ i = j

end WG.Recs
