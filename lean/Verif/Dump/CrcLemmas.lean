import Verif.Dump.Crc
/-! Helper lemmas about the CRC. -/
namespace WG

/-- The table as a GF(2)-linear combination of the entries of single-bit bytes. -/
def crcL (x : Byte) : BitVec 32 :=
  (if x.getLsbD 0 then crcT 1#8 else 0#32) ^^^ (if x.getLsbD 1 then crcT 2#8 else 0#32) ^^^
  (if x.getLsbD 2 then crcT 4#8 else 0#32) ^^^ (if x.getLsbD 3 then crcT 8#8 else 0#32) ^^^
  (if x.getLsbD 4 then crcT 16#8 else 0#32) ^^^ (if x.getLsbD 5 then crcT 32#8 else 0#32) ^^^
  (if x.getLsbD 6 then crcT 64#8 else 0#32) ^^^ (if x.getLsbD 7 then crcT 128#8 else 0#32)

theorem crc_table_facts : ∀ x : Byte, crcT x = crcL x ∧
    (crcT x >>> 24 = 0#32 → x = 0#8) ∧ (crcT x >>> 24 = 0xff#32 → (crcT x).getLsbD 23 = false) := by
  have h : ∀ i : Fin 256, crcT (BitVec.ofFin i) = crcL (BitVec.ofFin i) ∧
    (crcT (BitVec.ofFin i) >>> 24 = 0#32 → (BitVec.ofFin i) = 0#8) ∧
    (crcT (BitVec.ofFin i) >>> 24 = 0xff#32 → (crcT (BitVec.ofFin i)).getLsbD 23 = false) := by
    decide +kernel
  intro x
  exact h x.toFin

theorem ite_xor_bool (a b : Bool) (c : BitVec 32) :
    (if (a ^^ b) then c else 0#32) = (if a then c else 0#32) ^^^ (if b then c else 0#32) := by
  cases a <;> cases b <;> simp

theorem crcT_xor (x y : Byte) : crcT (x ^^^ y) = crcT x ^^^ crcT y := by
  rw [(crc_table_facts _).1, (crc_table_facts x).1, (crc_table_facts y).1]
  simp only [crcL, BitVec.getLsbD_xor, ite_xor_bool]
  ac_rfl

theorem crcT_zero : crcT 0#8 = 0#32 := by decide

/-- The linear part of a CRC step. -/
def crcA (x : BitVec 32) : BitVec 32 := crcT (x.setWidth 8) ^^^ x.sshiftRight 8

theorem sshiftRight_xor (x y : BitVec 32) (n : Nat) :
    (x ^^^ y).sshiftRight n = x.sshiftRight n ^^^ y.sshiftRight n := by
  apply BitVec.eq_of_getLsbD_eq
  intro i hi
  simp only [BitVec.getLsbD_sshiftRight, BitVec.getLsbD_xor, BitVec.msb_xor]
  by_cases h : 32 ≤ i
  · omega
  · simp only [h, decide_false, Bool.not_false, Bool.true_and]
    split <;> rfl

theorem crcA_xor (x y : BitVec 32) : crcA (x ^^^ y) = crcA x ^^^ crcA y := by
  unfold crcA
  rw [BitVec.setWidth_xor, crcT_xor, sshiftRight_xor]
  ac_rfl

theorem zext_sshr (b : Byte) : (b.setWidth 32).sshiftRight 8 = 0#32 := by
  apply BitVec.eq_of_getLsbD_eq
  intro i hi
  simp only [BitVec.getLsbD_sshiftRight, BitVec.getLsbD_setWidth, BitVec.msb_eq_getLsbD_last]
  have : b.getLsbD (8 + i) = false := BitVec.getLsbD_of_ge _ _ (by omega)
  simp [this]

theorem crcA_byte (b : Byte) : crcA (b.setWidth 32) = crcT b := by
  unfold crcA
  rw [zext_sshr]
  simp

theorem crcStep_eq (c : BitVec 32) (b : Byte) : crcStep c b = crcA (c ^^^ b.setWidth 32) := by
  rw [crcA_xor, crcA_byte]
  unfold crcStep crcA
  rw [crcT_xor]
  ac_rfl

theorem crcStep_diff (c c' : BitVec 32) (b b' : Byte) :
    crcStep c b ^^^ crcStep c' b' = crcA ((c ^^^ c') ^^^ (b ^^^ b').setWidth 32) := by
  rw [crcStep_eq, crcStep_eq, ← crcA_xor, BitVec.setWidth_xor]
  congr 1
  ac_rfl

/-- If the upper nine bits of `crcA x` are clear, the low byte of `x` is 0 and `crcA` only shifted. -/
theorem crcA_small (x : BitVec 32) (h : crcA x >>> 23 = 0#32) :
    x.setWidth 8 = 0#8 ∧ crcA x = x >>> 8 := by
  have hb : ∀ i, 23 ≤ i → i < 32 → (crcT (x.setWidth 8)).getLsbD i = x.msb := by
    intro i h1 h2
    have := congrArg (fun z => BitVec.getLsbD z (i - 23)) h
    simp only [BitVec.getLsbD_ushiftRight, crcA, BitVec.getLsbD_xor, BitVec.getLsbD_sshiftRight] at this
    rw [show 23 + (i - 23) = i by omega] at this
    have h3 : ¬ 32 ≤ i := by omega
    simp only [h3, decide_false, Bool.not_false, Bool.true_and, BitVec.getLsbD_zero] at this
    have h4 : (if 8 + i < 32 then x.getLsbD (8 + i) else x.msb) = x.msb := by
      split
      · rename_i h5
        have : 8 + i = 31 := by omega
        rw [this, BitVec.msb_eq_getLsbD_last]
      · rfl
    rw [h4] at this
    revert this
    cases (crcT (x.setWidth 8)).getLsbD i <;> cases x.msb <;> simp
  have hf := crc_table_facts (x.setWidth 8)
  cases hm : x.msb with
  | true =>
    exfalso
    rw [hm] at hb
    have : crcT (x.setWidth 8) >>> 24 = 0xff#32 := by
      apply BitVec.eq_of_getLsbD_eq
      intro i hi
      simp only [BitVec.getLsbD_ushiftRight]
      by_cases h8 : i < 8
      · rw [hb (24+i) (by omega) (by omega)]
        have : i = 0 ∨ i = 1 ∨ i = 2 ∨ i = 3 ∨ i = 4 ∨ i = 5 ∨ i = 6 ∨ i = 7 := by omega
        rcases this with rfl|rfl|rfl|rfl|rfl|rfl|rfl|rfl <;> rfl
      · rw [BitVec.getLsbD_of_ge _ _ (by omega)]
        rw [← BitVec.testBit_toNat]
        symm
        apply Nat.testBit_lt_two_pow
        calc (0xff#32).toNat < 2^8 := by decide
          _ ≤ 2^i := Nat.pow_le_pow_right (by omega) (by omega)
    have h23 := hf.2.2 this
    rw [hb 23 (by omega) (by omega)] at h23
    cases h23
  | false =>
    rw [hm] at hb
    have : crcT (x.setWidth 8) >>> 24 = 0#32 := by
      apply BitVec.eq_of_getLsbD_eq
      intro i hi
      simp only [BitVec.getLsbD_ushiftRight, BitVec.getLsbD_zero]
      by_cases h8 : i < 8
      · exact hb (24+i) (by omega) (by omega)
      · exact BitVec.getLsbD_of_ge _ _ (by omega)
    have h0 := hf.2.1 this
    refine ⟨h0, ?_⟩
    unfold crcA
    rw [h0, crcT_zero]
    rw [BitVec.sshiftRight_eq_of_msb_false hm]
    simp

theorem lt_iff_ushr {w : Nat} (x : BitVec w) (k : Nat) : x >>> k = 0#w ↔ x.toNat < 2^k := by
  rw [← BitVec.toNat_inj, BitVec.toNat_ushiftRight, Nat.shiftRight_eq_div_pow, BitVec.toNat_ofNat,
    Nat.zero_mod, Nat.div_eq_zero_iff]
  have : 0 < 2^k := Nat.pow_pos (by decide)
  omega

theorem crcA_lt (x : BitVec 32) (k : Nat) (hk : k ≤ 23) (h : (crcA x).toNat < 2^k) :
    x.toNat < 2^(k+8) := by
  have h1 : crcA x >>> 23 = 0#32 := (lt_iff_ushr _ _).2
    (Nat.lt_of_lt_of_le h (Nat.pow_le_pow_right (by decide) hk))
  obtain ⟨_, h3⟩ := crcA_small x h1
  rw [h3, BitVec.toNat_ushiftRight, Nat.shiftRight_eq_div_pow] at h
  rw [Nat.pow_add]
  have := Nat.div_lt_iff_lt_mul (k := 2^8) (x := x.toNat) (y := 2^k) (by decide)
  omega

theorem crcA_eq_zero (x : BitVec 32) (h : crcA x = 0#32) : x = 0#32 := by
  obtain ⟨h2, h3⟩ := crcA_small x (by rw [h]; rfl)
  rw [h] at h3
  have h4 : x.toNat < 2^8 := (lt_iff_ushr x 8).1 h3.symm
  apply BitVec.eq_of_toNat_eq
  have h5 := congrArg BitVec.toNat h2
  rw [BitVec.toNat_setWidth, Nat.mod_eq_of_lt h4] at h5
  simpa using h5

theorem crcStep_inj {c c' : BitVec 32} {b : Byte} (h : crcStep c b = crcStep c' b) : c = c' := by
  have h1 := crcStep_diff c c' b b
  rw [h] at h1
  simp only [BitVec.xor_self] at h1
  have h2 := crcA_eq_zero _ h1.symm
  have h3 : c ^^^ c' = 0#32 := by simpa using h2
  exact BitVec.xor_eq_zero_iff.1 h3

theorem foldl_inj (l : List Byte) {c c' : BitVec 32} (h : l.foldl crcStep c = l.foldl crcStep c') :
    c = c' := by
  induction l generalizing c c' with
  | nil => exact h
  | cons b l ih => exact crcStep_inj (ih h)

theorem toNat_xor_lt {a b : BitVec 32} {k : Nat} (h1 : (a ^^^ b).toNat < 2^k) (h2 : b.toNat < 2^k) :
    a.toNat < 2^k := by
  have : a = (a ^^^ b) ^^^ b := by rw [BitVec.xor_assoc, BitVec.xor_self]; simp
  rw [this, BitVec.toNat_xor]
  exact Nat.xor_lt_two_pow h1 h2

theorem zext_lt (d : Byte) (k : Nat) (hk : 8 ≤ k) : (d.setWidth 32).toNat < 2^k := by
  have h1 : (d.setWidth 32).toNat < 2^8 := by
    rw [BitVec.toNat_setWidth]
    have := d.isLt
    have := Nat.mod_le d.toNat (2^32)
    omega
  exact Nat.lt_of_lt_of_le h1 (Nat.pow_le_pow_right (by decide) hk)

/-- A burst of at most four differing bytes leaves a non-zero difference. -/
theorem chain4 (d1 d2 d3 d4 : Byte)
    (h : crcA (crcA (crcA (crcA (d1.setWidth 32) ^^^ d2.setWidth 32) ^^^ d3.setWidth 32) ^^^ d4.setWidth 32)
      = 0#32) : d1 = 0#8 ∧ d2 = 0#8 ∧ d3 = 0#8 ∧ d4 = 0#8 := by
  have zeq : ∀ d : Byte, (d.setWidth 32 : BitVec 32) = 0#32 → d = 0#8 := by
    intro d hd
    apply BitVec.eq_of_toNat_eq
    have := congrArg BitVec.toNat hd
    rw [BitVec.toNat_setWidth, Nat.mod_eq_of_lt (by have := d.isLt; omega)] at this
    simpa using this
  have h4 := crcA_eq_zero _ h
  have e3 : crcA (crcA (crcA (d1.setWidth 32) ^^^ d2.setWidth 32) ^^^ d3.setWidth 32) = d4.setWidth 32 :=
    BitVec.xor_eq_zero_iff.1 h4
  have b3 := crcA_lt _ 8 (by decide) (by rw [e3]; exact zext_lt d4 8 (by decide))
  have b3' := toNat_xor_lt b3 (zext_lt d3 16 (by decide))
  have b2 := crcA_lt _ 16 (by decide) b3'
  have b2' := toNat_xor_lt b2 (zext_lt d2 24 (by decide))
  rw [crcA_byte] at b2'
  have z1 : d1 = 0#8 := (crc_table_facts d1).2.1 ((lt_iff_ushr _ 24).2 b2')
  subst z1
  have a0 : crcA ((0#8).setWidth 32) = 0#32 := by rw [crcA_byte]; exact crcT_zero
  rw [a0, BitVec.zero_xor] at e3 b3'
  have hb2 : (crcA (d2.setWidth 32)).toNat < 2^24 :=
    Nat.lt_of_lt_of_le b3' (Nat.pow_le_pow_right (by decide) (by decide))
  rw [crcA_byte] at hb2
  have z2 : d2 = 0#8 := (crc_table_facts d2).2.1 ((lt_iff_ushr _ 24).2 hb2)
  subst z2
  rw [a0, BitVec.zero_xor] at e3
  have hb3 : (crcA (d3.setWidth 32)).toNat < 2^24 := by rw [e3]; exact zext_lt d4 24 (by decide)
  rw [crcA_byte] at hb3
  have z3 : d3 = 0#8 := (crc_table_facts d3).2.1 ((lt_iff_ushr _ 24).2 hb3)
  subst z3
  rw [a0] at e3
  exact ⟨rfl, rfl, rfl, zeq d4 e3.symm⟩

/-- Two different equally long byte runs of length at most 4 lead to different CRC states. -/
theorem burst (c : BitVec 32) (p q : List Byte) (hl : p.length = q.length) (h4 : p.length ≤ 4)
    (h : p.foldl crcStep c = q.foldl crcStep c) : p = q := by
  have base : ∀ d1 d2 d3 d4 e1 e2 e3 e4 : Byte, ∀ c c' : BitVec 32, c = c' →
      [d1,d2,d3,d4].foldl crcStep c = [e1,e2,e3,e4].foldl crcStep c' → [d1,d2,d3,d4] = [e1,e2,e3,e4] := by
    intro d1 d2 d3 d4 e1 e2 e3 e4 c c' hc h
    subst hc
    simp only [List.foldl] at h
    have h' := BitVec.xor_eq_zero_iff.2 h
    simp only [crcStep_diff, BitVec.xor_self, BitVec.zero_xor] at h'
    obtain ⟨a, b, c', d⟩ := chain4 _ _ _ _ h'
    rw [BitVec.xor_eq_zero_iff.1 a, BitVec.xor_eq_zero_iff.1 b, BitVec.xor_eq_zero_iff.1 c',
      BitVec.xor_eq_zero_iff.1 d]
  -- pad on the left with zero differences: any state has a predecessor under equal bytes
  have eq1 : ∀ d e : Byte, ∀ c : BitVec 32, crcStep c d = crcStep c e → d = e := by
    intro d e c h
    have h' := BitVec.xor_eq_zero_iff.2 h
    simp only [crcStep_diff, BitVec.xor_self, BitVec.zero_xor] at h'
    have := chain4 0#8 0#8 0#8 (d ^^^ e) (by
      have a0 : crcA ((0#8).setWidth 32) = 0#32 := by rw [crcA_byte]; exact crcT_zero
      simp only [a0, BitVec.zero_xor]; exact h')
    exact BitVec.xor_eq_zero_iff.1 this.2.2.2
  match p, q, hl, h4 with
  | [], [], _, _ => rfl
  | [d], [e], _, _ => rw [eq1 d e c h]
  | [d1,d2], [e1,e2], _, _ =>
    simp only [List.foldl] at h
    have h' := BitVec.xor_eq_zero_iff.2 h
    simp only [crcStep_diff, BitVec.xor_self, BitVec.zero_xor] at h'
    have := chain4 0#8 0#8 (d1 ^^^ e1) (d2 ^^^ e2) (by
      have a0 : crcA ((0#8).setWidth 32) = 0#32 := by rw [crcA_byte]; exact crcT_zero
      simp only [a0, BitVec.zero_xor]; exact h')
    rw [BitVec.xor_eq_zero_iff.1 this.2.2.1, BitVec.xor_eq_zero_iff.1 this.2.2.2]
  | [d1,d2,d3], [e1,e2,e3], _, _ =>
    simp only [List.foldl] at h
    have h' := BitVec.xor_eq_zero_iff.2 h
    simp only [crcStep_diff, BitVec.xor_self, BitVec.zero_xor] at h'
    have := chain4 0#8 (d1 ^^^ e1) (d2 ^^^ e2) (d3 ^^^ e3) (by
      have a0 : crcA ((0#8).setWidth 32) = 0#32 := by rw [crcA_byte]; exact crcT_zero
      simp only [a0, BitVec.zero_xor]; exact h')
    rw [BitVec.xor_eq_zero_iff.1 this.2.1, BitVec.xor_eq_zero_iff.1 this.2.2.1,
      BitVec.xor_eq_zero_iff.1 this.2.2.2]
  | [d1,d2,d3,d4], [e1,e2,e3,e4], _, _ => exact base _ _ _ _ _ _ _ _ c c rfl h

theorem updateCrc_append (a b : List Byte) (c : BitVec 32) :
    updateCrc (a ++ b) c = updateCrc b (updateCrc a c) := by
  unfold updateCrc
  rw [List.foldl_append, BitVec.xor_assoc, BitVec.xor_self]
  simp

theorem updateCrc_burst (pre p q post : List Byte) (hl : p.length = q.length) (h4 : p.length ≤ 4)
    (h : updateCrc (pre ++ p ++ post) 0#32 = updateCrc (pre ++ q ++ post) 0#32) : p = q := by
  unfold updateCrc at h
  have h2 := BitVec.xor_left_inj 0xffffffff#32 |>.1 h
  simp only [List.foldl_append] at h2
  exact burst _ p q hl h4 (foldl_inj post h2)

end WG
