import Verif.Attach.Model
/-! # Histories of the machine, and decimal names -/
namespace WG.Attach

/-- States that the machine can get into when all programs on it use the library: any segments may exist at the beginning, also segments
of other programs; nobody is in the middle of a call. -/
inductive Reach : State → Prop
  | start {s : State} : (∀ p, s.procs p = .idle) → (∀ k id, s.tbl k = some id → id < s.next) → Reach s
  | step {s s' : State} {e : Ev} : Reach s → Step s e s' → Reach s'

/-- The same without removals of key `k`. -/
inductive ReachKeep (k : Int) : State → Prop
  | start {s : State} : (∀ p, s.procs p = .idle) → (∀ k id, s.tbl k = some id → id < s.next) → ReachKeep k s
  | step {s s' : State} : ReachKeep k s → Step s .other s' → ReachKeep k s'
  | remove {s s' : State} {p : Nat} {k' : Int} : ReachKeep k s → k' ≠ k → Step s (.remove p k') s' → ReachKeep k s'

/-- Some steps. -/
inductive Steps : State → State → Prop
  | refl {s : State} : Steps s s
  | step {s s' s'' : State} {e : Ev} : Steps s s' → Step s' e s'' → Steps s s''

/-- A sequence of decimal digits, not empty. -/
def Digits (ds : Str) : Prop := ds ≠ [] ∧ ∀ c ∈ ds, 48 ≤ c.toNat ∧ c.toNat ≤ 57

end WG.Attach
