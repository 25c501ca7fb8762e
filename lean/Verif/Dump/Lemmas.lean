import Verif.Dump.Model
import Verif.Dump.CrcLemmas
/-! Helper lemmas for the dump theorems. -/
namespace WG

theorem length_patch (l bs : List Byte) (off : Nat) (h : off + bs.length ≤ l.length) :
    (patch l off bs).length = l.length := by
  unfold patch
  simp only [List.length_append, List.length_take, List.length_drop]
  omega

theorem byteAt_append_left (a b : List Byte) (i : Nat) (h : i < a.length) :
    byteAt (a ++ b) i = byteAt a i := by
  unfold byteAt; simp [List.getD_eq_getElem?_getD, List.getElem?_append_left h]

theorem byteAt_append_right (a b : List Byte) (i : Nat) (h : a.length ≤ i) :
    byteAt (a ++ b) i = byteAt b (i - a.length) := by
  unfold byteAt; simp [List.getD_eq_getElem?_getD, List.getElem?_append_right h]

theorem byteAt_take (a : List Byte) (n i : Nat) (h : i < n) : byteAt (a.take n) i = byteAt a i := by
  unfold byteAt; simp [List.getD_eq_getElem?_getD, h]

theorem byteAt_drop (a : List Byte) (n i : Nat) : byteAt (a.drop n) i = byteAt a (n + i) := by
  unfold byteAt; simp [List.getD_eq_getElem?_getD]

theorem byteAt_patch (l bs : List Byte) (off i : Nat) (h : off + bs.length ≤ l.length) :
    byteAt (patch l off bs) i =
      if off ≤ i ∧ i < off + bs.length then byteAt bs (i - off) else byteAt l i := by
  unfold patch
  have hlt : (l.take off).length = off := by simp; omega
  by_cases h1 : i < off
  · rw [if_neg (by omega), List.append_assoc, byteAt_append_left _ _ _ (by omega), byteAt_take _ _ _ h1]
  · by_cases h2 : i < off + bs.length
    · rw [if_pos (by omega), List.append_assoc, byteAt_append_right _ _ _ (by omega), hlt,
        byteAt_append_left _ _ _ (by omega)]
    · rw [if_neg (by omega), byteAt_append_right _ _ _ (by simp [hlt]; omega), byteAt_drop]
      congr 1
      simp [hlt]; omega

/-- Lists of the same length with the same bytes are equal. -/
theorem ext_byteAt {a b : List Byte} (hl : a.length = b.length)
    (h : ∀ i, i < a.length → byteAt a i = byteAt b i) : a = b := by
  apply List.ext_getElem hl
  intro i h1 h2
  have := h i h1
  simpa [byteAt, List.getD_eq_getElem?_getD, List.getElem?_eq_getElem h1, List.getElem?_eq_getElem h2] using this

theorem le32_congr {a b : List Byte} {x y : Nat} (h : ∀ i, i < 4 → byteAt a (x+i) = byteAt b (y+i)) :
    le32 a x = le32 b y := by
  unfold le32
  rw [h 3 (by omega), h 2 (by omega), h 1 (by omega)]
  have := h 0 (by omega)
  simp only [Nat.add_zero] at this
  rw [this]

theorem le64_congr {a b : List Byte} {x y : Nat} (h : ∀ i, i < 8 → byteAt a (x+i) = byteAt b (y+i)) :
    le64 a x = le64 b y := by
  unfold le64
  rw [le32_congr (a := a) (b := b) (x := x) (y := y) (fun i hi => h i (by omega)),
    le32_congr (a := a) (b := b) (x := x+4) (y := y+4) (fun i hi => by
      have := h (4+i) (by omega)
      rwa [← Nat.add_assoc, ← Nat.add_assoc] at this)]

theorem append_bytes_inj {a3 a2 a1 a0 b3 b2 b1 b0 : Byte}
    (h : a3 ++ a2 ++ a1 ++ a0 = b3 ++ b2 ++ b1 ++ b0) : a0 = b0 ∧ a1 = b1 ∧ a2 = b2 ∧ a3 = b3 := by
  have key : ∀ i, i < 32 → (a3 ++ a2 ++ a1 ++ a0).getLsbD i = (b3 ++ b2 ++ b1 ++ b0).getLsbD i := by
    intro i _; rw [h]
  simp only [BitVec.getLsbD_append] at key
  refine ⟨?_, ?_, ?_, ?_⟩ <;> apply BitVec.eq_of_getLsbD_eq <;> intro i hi
  · have := key i (by omega); simpa [hi] using this
  · have := key (8+i) (by omega)
    have h1 : ¬ 8 + i < 8 := by omega
    have h2 : 8 + i - 8 = i := by omega
    simpa [h1, h2, hi] using this
  · have := key (16+i) (by omega)
    have h1 : ¬ 16 + i < 8 := by omega
    have h2 : ¬ 16 + i - 8 < 8 := by omega
    have h3 : 16 + i - 8 - 8 = i := by omega
    simpa [h1, h2, h3, hi] using this
  · have := key (24+i) (by omega)
    have h1 : ¬ 24 + i < 8 := by omega
    have h2 : ¬ 24 + i - 8 < 8 := by omega
    have h3 : ¬ 24 + i - 8 - 8 < 8 := by omega
    have h4 : 24 + i - 8 - 8 - 8 = i := by omega
    simpa [h1, h2, h3, h4, hi] using this

theorem le32_inj {a b : List Byte} {x : Nat} (h : le32 a x = le32 b x) :
    ∀ i, x ≤ i → i < x + 4 → byteAt a i = byteAt b i := by
  have := append_bytes_inj h
  intro i h1 h2
  have hi : i = x ∨ i = x + 1 ∨ i = x + 2 ∨ i = x + 3 := by omega
  rcases hi with rfl | rfl | rfl | rfl
  · exact this.1
  · exact this.2.1
  · exact this.2.2.1
  · exact this.2.2.2

theorem bytes32_append (w : BitVec 32) :
    (w >>> 24).setWidth 8 ++ (w >>> 16).setWidth 8 ++ (w >>> 8).setWidth 8 ++ (w.setWidth 8 : Byte) = w := by
  apply BitVec.eq_of_getLsbD_eq
  intro i hi
  simp only [BitVec.getLsbD_append, BitVec.getLsbD_setWidth, BitVec.getLsbD_ushiftRight]
  by_cases h1 : i < 8
  · simp [h1]
  · by_cases h2 : i < 16
    · have a : i - 8 < 8 := by omega
      have b : 8 + (i - 8) = i := by omega
      simp [h1, a, b]
    · by_cases h3 : i < 24
      · have a : ¬ i - 8 < 8 := by omega
        have b : i - 8 - 8 < 8 := by omega
        have c : 16 + (i - 8 - 8) = i := by omega
        simp [h1, a, b, c]
      · have a : ¬ i - 8 < 8 := by omega
        have b : ¬ i - 8 - 8 < 8 := by omega
        have c : i - 8 - 8 - 8 < 8 := by omega
        have d : 24 + (i - 8 - 8 - 8) = i := by omega
        simp [h1, a, b, c, d]

theorem length_bytes32 (w : BitVec 32) : (bytes32 w).length = 4 := rfl
theorem length_bytes64 (w : BitVec 64) : (bytes64 w).length = 8 := rfl

theorem le32_bytes32 (w : BitVec 32) : le32 (bytes32 w) 0 = w := bytes32_append w

theorem append32 (w : BitVec 64) : (w >>> 32).setWidth 32 ++ (w.setWidth 32 : BitVec 32) = w := by
  apply BitVec.eq_of_getLsbD_eq
  intro i hi
  simp only [BitVec.getLsbD_append, BitVec.getLsbD_setWidth, BitVec.getLsbD_ushiftRight]
  by_cases h1 : i < 32
  · simp [h1]
  · have a : i - 32 < 32 := by omega
    have b : 32 + (i - 32) = i := by omega
    simp [h1, a, b]

theorem le64_bytes64 (w : BitVec 64) : le64 (bytes64 w) 0 = w := by
  unfold le64
  have h1 : le32 (bytes64 w) (0+4) = (w >>> 32).setWidth 32 := by
    rw [← le32_bytes32 ((w >>> 32).setWidth 32)]
    apply le32_congr
    intro i hi
    have : i = 0 ∨ i = 1 ∨ i = 2 ∨ i = 3 := by omega
    rcases this with rfl|rfl|rfl|rfl <;> rfl
  have h2 : le32 (bytes64 w) 0 = w.setWidth 32 := by
    rw [← le32_bytes32 (w.setWidth 32)]
    apply le32_congr
    intro i hi
    have : i = 0 ∨ i = 1 ∨ i = 2 ∨ i = 3 := by omega
    rcases this with rfl|rfl|rfl|rfl <;> rfl
  rw [h1, h2, append32]

theorem le32_patch_same (l : List Byte) (off : Nat) (w : BitVec 32) (h : off + 4 ≤ l.length) :
    le32 (patch l off (bytes32 w)) off = w := by
  rw [← le32_bytes32 w]
  apply le32_congr
  intro i hi
  rw [le32_bytes32, byteAt_patch _ _ _ _ h, if_pos (by rw [length_bytes32]; omega)]
  congr 1; omega

theorem le64_patch_same (l : List Byte) (off : Nat) (w : BitVec 64) (h : off + 8 ≤ l.length) :
    le64 (patch l off (bytes64 w)) off = w := by
  conv => rhs; rw [← le64_bytes64 w]
  apply le64_congr
  intro i hi
  rw [byteAt_patch _ _ _ _ h, if_pos (by rw [length_bytes64]; omega)]
  congr 1; omega

theorem le32_patch_other (l bs : List Byte) (off x : Nat) (h : off + bs.length ≤ l.length)
    (hd : x + 4 ≤ off ∨ off + bs.length ≤ x) : le32 (patch l off bs) x = le32 l x := by
  apply le32_congr
  intro i hi
  rw [byteAt_patch _ _ _ _ h, if_neg (by omega)]

theorem le64_patch_other (l bs : List Byte) (off x : Nat) (h : off + bs.length ≤ l.length)
    (hd : x + 8 ≤ off ∨ off + bs.length ≤ x) : le64 (patch l off bs) x = le64 l x := by
  apply le64_congr
  intro i hi
  rw [byteAt_patch _ _ _ _ h, if_neg (by omega)]

theorem crcLoop_eq (rest : List Byte) (crc : BitVec 32) (n : Nat) :
    crcLoop rest crc n = (updateCrc rest crc, n + rest.length) := by
  induction hk : rest.length using Nat.strongRecOn generalizing rest crc n with
  | ind k ih =>
    unfold crcLoop
    split
    · rename_i h
      subst h
      simp [updateCrc, BitVec.xor_assoc] at hk ⊢
      exact hk.symm
    · rename_i h
      have hp : 0 < rest.length := List.length_pos_iff.2 h
      rw [ih (rest.drop bufSize).length (by simp only [List.length_drop, bufSize]; omega) _ _ _ rfl]
      rw [← updateCrc_append, List.take_append_drop]
      have e : n + (rest.take bufSize).length + (rest.drop bufSize).length = n + k := by
        simp only [List.length_drop, List.length_take]; omega
      rw [e]

/-- When `wg_check_dump` accepts, in terms of the whole file. -/
theorem checkDump_iff (ver feat : BitVec 32) (f : List Byte) :
    checkDump ver feat f = 0 ↔ bufSize ≤ f.length ∧ checkHeaderCompat ver feat f = 0 ∧
      (f.length : Int) = (hFree f).toInt ∧
      updateCrc (patch f 12 [0#8,0#8,0#8,0#8]) 0#32 = hChecksum f := by
  unfold checkDump
  by_cases hl : f.length < bufSize
  · simp only [hl, if_true]
    constructor
    · intro h; cases h
    · intro h; omega
  · simp only [hl, if_false]
    have hb : bufSize = 8192 := rfl
    have e : ∀ off, off + 4 ≤ bufSize → le32 (f.take bufSize) off = le32 f off := by
      intro off h
      apply le32_congr
      intro i hi; exact byteAt_take _ _ _ (by omega)
    have e8 : hFree (f.take bufSize) = hFree f := by
      apply le64_congr
      intro i hi; exact byteAt_take _ _ _ (by omega)
    have hcc : checkHeaderCompat ver feat (f.take bufSize) = checkHeaderCompat ver feat f := by
      unfold checkHeaderCompat hMark hVersion hFeatures
      rw [e 0 (by omega), e 4 (by omega), e 8 (by omega), byteAt_take _ _ 3 (by omega),
        byteAt_take _ _ 2 (by omega), byteAt_take _ _ 1 (by omega), byteAt_take _ _ 0 (by omega)]
    have hcs : hChecksum (f.take bufSize) = hChecksum f := e 12 (by omega)
    have hz : patch (f.take bufSize) 12 [0#8,0#8,0#8,0#8] ++ f.drop bufSize = patch f 12 [0#8,0#8,0#8,0#8] := by
      unfold patch
      rw [List.append_assoc]
      congr 1
      · rw [List.take_take]; congr 2; 
      · simp only [List.length_cons, List.length_nil]
        conv => rhs; rw [← List.take_append_drop bufSize f]
        rw [List.drop_append_of_le_length]
        simp only [List.length_take]; omega
    rw [crcLoop_eq, ← updateCrc_append, hz, hcc, e8, hcs]
    have hlen : (bufSize + (f.drop bufSize).length : Nat) = f.length := by
      simp only [List.length_drop]; omega
    simp only [hlen]
    by_cases h1 : checkHeaderCompat ver feat f = 0
    · simp only [h1, ne_eq, not_true, if_false]
      by_cases h2 : (f.length : Int) = (hFree f).toInt
      · simp only [h2, not_true, if_false]
        by_cases h3 : updateCrc (patch f 12 [0#8,0#8,0#8,0#8]) 0#32 = hChecksum f
        · simp [h3]; omega
        · simp [h3]
      · simp [h2]
    · simp [h1]

theorem compat_zero {ver feat : BitVec 32} {h : List Byte} (hc : checkHeaderCompat ver feat h = 0) :
    hMark h = magicMark ∧ hVersion h = ver ∧ hFeatures h = feat := by
  unfold checkHeaderCompat at hc
  by_cases h1 : hMark h = magicMark
  · by_cases h2 : hVersion h = ver
    · by_cases h3 : hFeatures h = feat
      · exact ⟨h1, h2, h3⟩
      · simp [h1, h2, h3] at hc
    · simp [h1, h2] at hc
  · simp only [ne_eq, h1, not_false_eq_true, if_true] at hc
    split at hc <;> simp at hc

end WG
