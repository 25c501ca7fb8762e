import Verif.Mem.Model
/-! Property C48. Permission bits are given by number: bit 8/7/6 owner r/w/x, 5/4/3 group, 2/1/0 others. -/
namespace WG

/-- The group and other bits of a mode, rebuilt from its four relevant bits. -/
theorem perms_and (m : BitVec 32) : m &&& 0o666#32 ||| 0o600#32 =
    (if m.getLsbD 5 then 0o040#32 else 0#32) ||| (if m.getLsbD 4 then 0o020#32 else 0#32) |||
    (if m.getLsbD 2 then 0o004#32 else 0#32) ||| (if m.getLsbD 1 then 0o002#32 else 0#32) ||| 0o600#32 := by
  have key : m &&& 0o666#32 ||| 0o600#32 = m &&& 0o066#32 ||| 0o600#32 := by
    apply BitVec.eq_of_getLsbD_eq
    intro i _
    by_cases h7 : i = 7
    · subst h7; simp
    · by_cases h8 : i = 8
      · subst h8; simp
      · simp only [BitVec.getLsbD_or, BitVec.getLsbD_and]
        have : (0o666#32).getLsbD i = (0o066#32 ||| 0o600#32).getLsbD i := rfl
        rw [this, BitVec.getLsbD_or]
        cases m.getLsbD i <;> cases (0o066#32).getLsbD i <;> cases (0o600#32).getLsbD i <;> rfl
  rw [key]
  congr 1
  apply BitVec.eq_of_getLsbD_eq
  intro i hi
  have mask : (0o066#32).getLsbD i = (decide (i = 5) || decide (i = 4) || decide (i = 2) || decide (i = 1)) := by
    have : ∀ j : Fin 32, (0o066#32).getLsbD j = (decide (j.val = 5) || decide (j.val = 4) || decide (j.val = 2) || decide (j.val = 1)) := by
      decide
    exact this ⟨i, hi⟩
  have bit : ∀ (b : Bool) (k : Nat) (c : BitVec 32), (∀ j : Fin 32, c.getLsbD j = decide (j.val = k)) →
      (if b then c else 0#32).getLsbD i = (b && decide (i = k)) := by
    intro b k c hc
    cases b
    · simp
    · simp only [if_true]; rw [hc ⟨i, hi⟩]; simp
  simp only [BitVec.getLsbD_or, BitVec.getLsbD_and, mask]
  rw [bit _ 5 0o040#32 (by decide), bit _ 4 0o020#32 (by decide), bit _ 2 0o004#32 (by decide),
    bit _ 1 0o002#32 (by decide)]
  by_cases h5 : i = 5
  · subst h5; simp
  · by_cases h4 : i = 4
    · subst h4; simp
    · by_cases h2 : i = 2
      · subst h2; simp
      · by_cases h1 : i = 1
        · subst h1; simp
        · simp [h5, h4, h2, h1]

theorem normalizePerms_eq (m : BitVec 32) : normalizePerms m =
    0o600#32 ||| (if m.getLsbD 5 && m.getLsbD 4 then 0o060#32 else 0#32) |||
    (if m.getLsbD 2 && m.getLsbD 1 then 0o006#32 else 0#32) := by
  unfold normalizePerms
  simp only
  rw [perms_and]
  cases m.getLsbD 5 <;> cases m.getLsbD 4 <;> cases m.getLsbD 2 <;> cases m.getLsbD 1 <;> decide

theorem normalizePerms_bits (m : BitVec 32) (i : Nat) :
    (normalizePerms m).getLsbD i =
      if i = 8 ∨ i = 7 then true
      else if i = 5 ∨ i = 4 then m.getLsbD 5 && m.getLsbD 4
      else if i = 2 ∨ i = 1 then m.getLsbD 2 && m.getLsbD 1
      else false := by
  rw [normalizePerms_eq]
  by_cases hi : i < 32
  · have h6 : (0o600#32).getLsbD i = decide (i = 8 ∨ i = 7) := by
      have : ∀ j : Fin 32, (0o600#32).getLsbD j = decide (j.val = 8 ∨ j.val = 7) := by decide
      exact this ⟨i, hi⟩
    have hg : (0o060#32).getLsbD i = decide (i = 5 ∨ i = 4) := by
      have : ∀ j : Fin 32, (0o060#32).getLsbD j = decide (j.val = 5 ∨ j.val = 4) := by decide
      exact this ⟨i, hi⟩
    have ho : (0o006#32).getLsbD i = decide (i = 2 ∨ i = 1) := by
      have : ∀ j : Fin 32, (0o006#32).getLsbD j = decide (j.val = 2 ∨ j.val = 1) := by decide
      exact this ⟨i, hi⟩
    have ite_get : ∀ (b : Bool) (c : BitVec 32), (if b then c else 0#32).getLsbD i = (b && c.getLsbD i) := by
      intro b c; cases b <;> simp
    rw [BitVec.getLsbD_or, BitVec.getLsbD_or, ite_get, ite_get, h6, hg, ho]
    by_cases a : i = 8 ∨ i = 7
    · simp [a]
    · by_cases b : i = 5 ∨ i = 4
      · have c : ¬ (i = 2 ∨ i = 1) := by omega
        simp [a, b, c]
      · by_cases c : i = 2 ∨ i = 1
        · simp [a, b, c]
        · simp [a, b, c]
  · rw [BitVec.getLsbD_of_ge _ _ (by omega), if_neg (by omega), if_neg (by omega), if_neg (by omega)]

/-- C48: owner read and write are always granted; nothing outside the six r/w bits is; group (others) get
both read and write exactly when both were requested, otherwise neither. -/
theorem C48_normalize_perms (m : BitVec 32) :
    let r := normalizePerms m
    (r.getLsbD 8 = true ∧ r.getLsbD 7 = true) ∧
    (∀ i, r.getLsbD i = true → i ∈ [8, 7, 5, 4, 2, 1]) ∧
    (r.getLsbD 5 = r.getLsbD 4 ∧ (r.getLsbD 5 = true ↔ m.getLsbD 5 = true ∧ m.getLsbD 4 = true)) ∧
    (r.getLsbD 2 = r.getLsbD 1 ∧ (r.getLsbD 2 = true ↔ m.getLsbD 2 = true ∧ m.getLsbD 1 = true)) ∧
    (∀ i, i ≠ 8 → i ≠ 7 → r.getLsbD i = true → m.getLsbD i = true) := by
  simp only [normalizePerms_bits]
  refine ⟨by simp, ?_, by simp, by simp, ?_⟩
  · intro i h
    split at h
    · simp; omega
    · split at h
      · simp; omega
      · split at h
        · simp; omega
        · cases h
  · intro i h8 h7 h
    split at h
    · omega
    · split at h
      · rename_i hh; rcases hh with rfl | rfl <;> simp at h <;> simp [h]
      · split at h
        · rename_i hh; rcases hh with rfl | rfl <;> simp at h <;> simp [h]
        · cases h

/-- C48: normalising twice changes nothing. -/
theorem C48_idempotent (m : BitVec 32) : normalizePerms (normalizePerms m) = normalizePerms m := by
  apply BitVec.eq_of_getLsbD_eq
  intro i _
  rw [normalizePerms_bits (normalizePerms m), normalizePerms_bits m i, normalizePerms_bits m 5,
    normalizePerms_bits m 4, normalizePerms_bits m 2, normalizePerms_bits m 1]
  simp

example : normalizePerms 0o7764#32 = 0o660#32 ∧ normalizePerms 0o147#32 = 0o606#32 := by decide

end WG
