import Verif.Param.Model
/-! # Writing bytes and words -/
namespace WG.Param

theorem word_byte (W : Word) (b : BitVec 8) {j k : Nat} (hj : j < 8) (hk : k < 8) :
    (((W &&& ~~~(0xff#64 <<< (8 * k))) ||| (b.setWidth 64 <<< (8 * k))) >>> (8 * j)).setWidth 8 = if j = k then b else (W >>> (8 * j)).setWidth 8 := by
  apply BitVec.eq_of_getLsbD_eq
  intro i hi
  have hff : ∀ n, (0xff#64).getLsbD n = decide (n < 8) := by
    intro n
    by_cases h : n < 64
    · have : ∀ n : Fin 64, (0xff#64).getLsbD n.val = decide (n.val < 8) := by decide
      exact this ⟨n, h⟩
    · rw [BitVec.getLsbD_of_ge _ _ (by omega)]; simp; omega
  simp only [BitVec.getLsbD_setWidth, BitVec.getLsbD_ushiftRight, BitVec.getLsbD_or, BitVec.getLsbD_and, BitVec.getLsbD_not, BitVec.getLsbD_shiftLeft, hff, hi, decide_true,
    Bool.true_and]
  by_cases h : j = k
  · subst h
    rw [if_pos rfl]
    have e1 : 8 * j + i - 8 * j = i := by omega
    have e2 : decide (8 * j + i < 64) = true := by simp; omega
    have e3 : decide (8 * j + i < 8 * j) = false := by simp
    have e4 : decide (i < 64) = true := by simp; omega
    simp [e1, e2, hi, e4]
  · rw [if_neg h]
    rw [BitVec.getLsbD_setWidth, BitVec.getLsbD_ushiftRight]
    have e2 : decide (8 * j + i < 64) = true := by simp; omega
    simp only [hi, decide_true, Bool.true_and, e2]
    rcases Nat.lt_or_gt_of_ne h with h1 | h1
    · have e3 : decide (8 * j + i < 8 * k) = true := by simp; omega
      simp [e3]
    · have e3 : decide (8 * j + i < 8 * k) = false := by simp; omega
      have e5 : decide (8 * j + i - 8 * k < 8) = false := by simp; omega
      have e6 : b.getLsbD (8 * j + i - 8 * k) = false := BitVec.getLsbD_of_ge _ _ (by omega)
      simp [e3, e5, e6]

theorem and7_lt (a : Word) : (a &&& 7#64).toNat < 8 := by
  rw [BitVec.toNat_and, show (7#64 : Word).toNat = 2 ^ 3 - 1 from rfl, Nat.and_two_pow_sub_one_eq_mod]
  omega

theorem and7 (a : Word) : (a &&& 7#64).toNat = a.toNat % 8 := by
  rw [BitVec.toNat_and, show (7#64 : Word).toNat = 2 ^ 3 - 1 from rfl, Nat.and_two_pow_sub_one_eq_mod]

theorem split7 (a : Word) : (a &&& ~~~7#64) + (a &&& 7#64) = a := by
  have : (a &&& ~~~7#64) &&& (a &&& 7#64) = 0#64 := by
    rw [BitVec.and_assoc, BitVec.and_comm (~~~7#64), BitVec.and_assoc, show (7#64 : Word) &&& ~~~7#64 = 0#64 from by decide]; simp
  rw [BitVec.add_eq_or_of_and_eq_zero _ _ this, ← BitVec.and_or_distrib_left, show (~~~7#64 ||| 7#64 : Word) = BitVec.allOnes 64 from by decide, BitVec.and_allOnes]

theorem base7 (a : Word) : (a &&& ~~~7#64).toNat = a.toNat / 8 * 8 := by
  have h := congrArg BitVec.toNat (split7 a)
  have hd : (a &&& ~~~7#64).toNat ≤ a.toNat := by rw [BitVec.toNat_and]; exact Nat.and_le_left
  rw [BitVec.toNat_add, and7] at h
  have := a.isLt
  have := (a &&& ~~~7#64).isLt
  omega

theorem same_split {a o : Word} : a = o ↔ a &&& ~~~7#64 = o &&& ~~~7#64 ∧ (a &&& 7#64).toNat = (o &&& 7#64).toNat := by
  constructor
  · rintro rfl; exact ⟨rfl, rfl⟩
  · rintro ⟨h1, h2⟩
    rw [← split7 a, ← split7 o, h1, BitVec.eq_of_toNat_eq h2]

/-- Reading after writing a byte. -/
theorem byte_put (m : Mem) (o a : Word) (b : BitVec 8) (n : Nat) : (⟨putByte m o b, n⟩ : Seg).byte a = if a = o then b else (⟨m, n⟩ : Seg).byte a := by
  unfold Seg.byte putByte
  dsimp only
  by_cases hb : a &&& ~~~7#64 = o &&& ~~~7#64
  · rw [if_pos hb, word_byte _ _ (and7_lt a) (and7_lt o)]
    by_cases h2 : (a &&& 7#64).toNat = (o &&& 7#64).toNat
    · rw [if_pos h2, if_pos (same_split.2 ⟨hb, h2⟩)]
    · rw [if_neg h2, if_neg (fun h => h2 (same_split.1 h).2)]
  · rw [if_neg hb, if_neg (fun h => hb (same_split.1 h).1)]

theorem toNat_add_ofNat {o : Word} {i : Nat} (h : o.toNat + i < 2 ^ 64) : (o + BitVec.ofNat 64 i).toNat = o.toNat + i := by
  rw [BitVec.toNat_add, BitVec.toNat_ofNat, Nat.mod_eq_of_lt (show i < 2 ^ 64 by omega), Nat.mod_eq_of_lt h]

/-- Reading after copying bytes. -/
theorem byte_copy : ∀ (l : Str) (m : Mem) (o a : Word) (n : Nat), o.toNat + l.length ≤ 2 ^ 64 → (⟨copy m o l, n⟩ : Seg).byte a =
    if o.toNat ≤ a.toNat ∧ a.toNat < o.toNat + l.length then l.getD (a.toNat - o.toNat) 0#8 else (⟨m, n⟩ : Seg).byte a
  | [], m, o, a, n, h => by
    rw [copy, if_neg]
    simp
  | b :: l, m, o, a, n, h => by
    rw [copy]
    simp only [List.length_cons] at h ⊢
    by_cases hl : l = []
    · subst hl
      rw [copy, byte_put]
      by_cases ha : a = o
      · subst ha; rw [if_pos rfl, if_pos (by simp)]; simp
      · have : a.toNat ≠ o.toNat := fun e => ha (BitVec.eq_of_toNat_eq e)
        rw [if_neg ha, if_neg (by simp; omega)]
    · have hp := List.length_pos_iff.2 hl
      have h1 : (o + 1#64).toNat = o.toNat + 1 := toNat_add_ofNat (i := 1) (by omega)
      rw [byte_copy l _ _ _ _ (by rw [h1]; omega), h1, byte_put]
      by_cases ha : a = o
      · subst ha; rw [if_neg (by omega), if_pos rfl, if_pos (by omega)]; simp
      · have : a.toNat ≠ o.toNat := fun e => ha (BitVec.eq_of_toNat_eq e)
        rw [if_neg ha]
        by_cases hr : o.toNat + 1 ≤ a.toNat ∧ a.toNat < o.toNat + 1 + l.length
        · rw [if_pos hr, if_pos (by omega), show a.toNat - o.toNat = (a.toNat - (o.toNat + 1)) + 1 by omega, List.getD_cons_succ]
        · rw [if_neg hr, if_neg (by omega)]

theorem aligned_base {a : Word} : a &&& ~~~7#64 = a ↔ a.toNat % 8 = 0 := by
  rw [← BitVec.toNat_inj, base7]; omega

/-- Reading a byte after writing a word elsewhere. -/
theorem byte_store (m : Mem) {o a v : Word} (n : Nat) (h : a &&& ~~~7#64 ≠ o) : (⟨dbstore m o v, n⟩ : Seg).byte a = (⟨m, n⟩ : Seg).byte a := by
  unfold Seg.byte dbstore
  dsimp only
  rw [if_neg h]

/-- Reading a word after copying bytes elsewhere. -/
theorem word_copy : ∀ (l : Str) (m : Mem) (o a : Word), o.toNat + l.length ≤ 2 ^ 64 → (a.toNat + 8 ≤ o.toNat ∨ o.toNat + l.length ≤ a.toNat) → a.toNat % 8 = 0 →
    copy m o l a = m a
  | [], m, o, a, _, _, _ => rfl
  | b :: l, m, o, a, h, hd, ha => by
    rw [copy]
    simp only [List.length_cons] at h hd
    have hb : a ≠ o &&& ~~~7#64 := by
      intro e
      have := congrArg BitVec.toNat e
      rw [base7] at this
      omega
    by_cases hl : l = []
    · subst hl; rw [copy, putByte, if_neg hb]
    · have hp := List.length_pos_iff.2 hl
      have h1 : (o + 1#64).toNat = o.toNat + 1 := toNat_add_ofNat (i := 1) (by omega)
      rw [word_copy l _ _ _ (by rw [h1]; omega) (by rw [h1]; omega) ha, putByte, if_neg hb]

/-- The words of memory are given by its bytes. -/
theorem word_of_bytes {m m' : Mem} {a : Word} (ha : a.toNat % 8 = 0) (h : ∀ i < 8, (⟨m', 0⟩ : Seg).byte (a + BitVec.ofNat 64 i) = (⟨m, 0⟩ : Seg).byte (a + BitVec.ofNat 64 i)) :
    m' a = m a := by
  apply BitVec.eq_of_getLsbD_eq
  intro i hi
  have hlt := a.isLt
  have hx : (a + BitVec.ofNat 64 (i / 8)).toNat = a.toNat + i / 8 := toNat_add_ofNat (by omega)
  have hb : (a + BitVec.ofNat 64 (i / 8)) &&& ~~~7#64 = a := by
    apply BitVec.eq_of_toNat_eq
    rw [base7, hx]; omega
  have h7 : ((a + BitVec.ofNat 64 (i / 8)) &&& 7#64).toNat = i / 8 := by rw [and7, hx]; omega
  have := congrArg (fun v => v.getLsbD (i % 8)) (h (i / 8) (by omega))
  simp only [Seg.byte, hb, h7, BitVec.getLsbD_setWidth, BitVec.getLsbD_ushiftRight] at this
  rw [show 8 * (i / 8) + i % 8 = i by omega] at this
  simpa [show i % 8 < 8 by omega] using this

/-- Reading a C string: it ends at the first 0 byte. -/
theorem cstr_eq {s : Seg} {o : Word} {l : Str} (h0 : 0#8 ∉ l) (hs : o.toNat + l.length < s.size) (hb : ∀ i < l.length, s.byte (o + BitVec.ofNat 64 i) = l.getD i 0#8)
    (hz : s.byte (o + BitVec.ofNat 64 l.length) = 0#8) : s.cstr o = l := by
  unfold Seg.cstr Seg.bytes
  obtain ⟨k, hk⟩ : ∃ k, s.size - o.toNat = l.length + 1 + k := ⟨s.size - o.toNat - l.length - 1, by omega⟩
  rw [hk, List.range_add, List.range_succ]
  simp only [List.map_append, List.map_map, List.append_assoc, List.map_cons, List.map_nil, List.cons_append, List.nil_append]
  have hl : (List.range l.length).map (fun i => s.byte (o + BitVec.ofNat 64 i)) = l := by
    apply List.ext_getElem
    · simp
    · intro i h1 h2
      simp only [List.getElem_map, List.getElem_range]
      rw [hb i h2]; simp [h2]
  rw [hl, List.takeWhile_append_of_pos (fun b hb => by simp; rintro rfl; exact h0 hb)]
  rw [List.takeWhile_cons, if_neg (by simp [hz])]
  simp

end WG.Param
