import Verif.Encoding.Model
/-! Counting lemmas and word arithmetic shared by the lock models. -/
namespace WG

/-- Replacing one element changes a count by that element only. -/
theorem countP_set_add {α : Type} (p : α → Bool) (l : List α) (i : Nat) (a b : α) (h : l[i]? = some a) :
    (l.set i b).countP p + (if p a then 1 else 0) = l.countP p + (if p b then 1 else 0) := by
  induction l generalizing i with
  | nil => simp at h
  | cons x xs ih =>
    cases i with
    | zero =>
      simp at h; subst h
      simp only [List.set_cons_zero, List.countP_cons]
      omega
    | succ i =>
      simp at h
      have := ih i h
      simp only [List.set_cons_succ, List.countP_cons]
      omega

theorem countP_pos_of_getElem? {α : Type} (p : α → Bool) (l : List α) (i : Nat) (a : α) (h : l[i]? = some a)
    (ha : p a = true) : 0 < l.countP p :=
  List.countP_pos_iff.2 ⟨a, List.mem_of_getElem? h, ha⟩

/-- Two different positions satisfying `p` make the count at least two. -/
theorem countP_two {α : Type} (p : α → Bool) (l : List α) (i j : Nat) (a b : α) (hij : i ≠ j)
    (hi : l[i]? = some a) (hj : l[j]? = some b) (ha : p a = true) (hb : p b = true) : 2 ≤ l.countP p := by
  induction l generalizing i j with
  | nil => simp at hi
  | cons x xs ih =>
    rw [List.countP_cons]
    cases i with
    | zero =>
      cases j with
      | zero => exact absurd rfl hij
      | succ j =>
        simp at hi hj; subst hi
        have := countP_pos_of_getElem? p xs j b hj hb
        rw [if_pos ha]; omega
    | succ i =>
      cases j with
      | zero =>
        simp at hi hj; subst hj
        have := countP_pos_of_getElem? p xs i a hi ha
        rw [if_pos hb]; omega
      | succ j =>
        simp at hi hj
        have := ih i j (by omega) hi hj
        omega

theorem word_and_one (x : Word) : (x &&& 1#64 = 0#64) ↔ x.toNat % 2 = 0 := by
  rw [← BitVec.toNat_inj]
  simp [BitVec.toNat_and, Nat.and_one_is_mod]

theorem word_andnot_one (x : Word) : (x &&& ~~~1#64).toNat = x.toNat - x.toNat % 2 := by
  have h : x &&& ~~~1#64 = (x >>> 1) <<< 1 := by
    apply BitVec.eq_of_getLsbD_eq
    intro i hi
    simp only [BitVec.getLsbD_and, BitVec.getLsbD_not, BitVec.getLsbD_shiftLeft, BitVec.getLsbD_ushiftRight]
    have h1 : ∀ j : Fin 64, (1#64 : Word).getLsbD j.1 = decide (j.1 = 0) := by decide
    rw [h1 ⟨i, hi⟩]
    by_cases h : i = 0
    · subst h; simp
    · have : 1 + (i - 1) = i := by omega
      simp [h, hi, this]
  rw [h, BitVec.toNat_shiftLeft, BitVec.toNat_ushiftRight, Nat.shiftRight_eq_div_pow, Nat.shiftLeft_eq]
  have := x.isLt
  omega

theorem word_add_two (x : Word) (h : x.toNat + 2 < 2 ^ 64) : (x + 2#64).toNat = x.toNat + 2 := by
  rw [BitVec.toNat_add]
  simp
  omega

theorem word_sub_two (x : Word) (h : 2 ≤ x.toNat) : (x - 2#64).toNat = x.toNat - 2 := by
  rw [BitVec.toNat_sub]
  have := x.isLt
  simp
  omega

theorem word_eq_zero (x : Word) : x = 0#64 ↔ x.toNat = 0 := by
  rw [← BitVec.toNat_inj]; simp

end WG
