/-! Independent specification of the proleptic Gregorian calendar. -/
namespace WG.Spec

/-- Leap years: divisible by 4, except centuries not divisible by 400. -/
def leap (y : Nat) : Prop := (4 ∣ y ∧ ¬ 100 ∣ y) ∨ 400 ∣ y

instance (y : Nat) : Decidable (leap y) := by unfold leap; infer_instance

/-- Length of a month. -/
def monthLen (y m : Nat) : Nat :=
  if m = 2 then (if leap y then 29 else 28)
  else if m = 4 ∨ m = 6 ∨ m = 9 ∨ m = 11 then 30 else 31

/-- A date of the Gregorian calendar, year 1 or later. -/
def ValidDate (y m d : Nat) : Prop := 1 ≤ y ∧ 1 ≤ m ∧ m ≤ 12 ∧ 1 ≤ d ∧ d ≤ monthLen y m

/-- The day after a date. -/
def nextDay (y m d : Nat) : Nat × Nat × Nat :=
  if d < monthLen y m then (y, m, d+1)
  else if m < 12 then (y, m+1, 1)
  else (y+1, 1, 1)

/-- Calendar order. -/
def dateLt (a b : Nat × Nat × Nat) : Prop :=
  a.1 < b.1 ∨ (a.1 = b.1 ∧ (a.2.1 < b.2.1 ∨ (a.2.1 = b.2.1 ∧ a.2.2 < b.2.2)))

end WG.Spec
