import Verif.Encoding.Model
import Mathlib.Tactic.NormNum
/-! Helper lemmas on bit vectors for the encoding theorems. -/
namespace WG

theorem testBit_small {c k i : Nat} (hc : c < 2^k) (h : k ≤ i) : c.testBit i = false :=
  Nat.testBit_lt_two_pow (Nat.lt_of_lt_of_le hc (Nat.pow_le_pow_right (by omega) h))

theorem getLsbD_small {w : Nat} {c : BitVec w} {k j : Nat} (hc : c.toNat < 2^k) (hj : k ≤ j) :
    c.getLsbD j = false := by
  rw [← BitVec.testBit_toNat]; exact testBit_small hc hj

theorem shl_or_sshr {w : Nat} (v c : BitVec w) (k : Nat) (hk : k < w) (hc : c.toNat < 2^k) :
    ((v <<< k) ||| c).sshiftRight k = (v <<< k).sshiftRight k := by
  apply BitVec.eq_of_getLsbD_eq
  intro i hi
  simp only [BitVec.getLsbD_sshiftRight, BitVec.msb_eq_getLsbD_last, BitVec.getLsbD_or]
  rw [getLsbD_small hc (by omega), getLsbD_small hc (by omega)]
  simp

theorem shl_or_and {w : Nat} (v c m : BitVec w) (k : Nat) (hm : m.toNat < 2^k) :
    ((v <<< k) ||| c) &&& m = c &&& m := by
  apply BitVec.eq_of_getLsbD_eq
  intro i hi
  simp only [BitVec.getLsbD_and, BitVec.getLsbD_or, BitVec.getLsbD_shiftLeft]
  by_cases h : i < k
  · simp [h]
  · rw [getLsbD_small hm (by omega)]; simp

/-- An 8-aligned word has zero low bits. -/
theorem aligned_or_and (off c m : Word) (h : off &&& 7#64 = 0#64) (hm : m &&& 7#64 = m) :
    (off ||| c) &&& m = c &&& m := by
  have h0 : off &&& m = 0#64 := by
    rw [← hm, BitVec.and_comm m, ← BitVec.and_assoc, h]; simp
  rw [BitVec.and_or_distrib_right, h0]; simp

theorem aligned_or_andnot (off c : Word) (h : off &&& 7#64 = 0#64) (hc : c &&& 7#64 = c) :
    (off ||| c) &&& ~~~7#64 = off := by
  apply BitVec.eq_of_getLsbD_eq
  intro i hi
  have h' := congrArg (fun x => BitVec.getLsbD x i) h
  have c' := congrArg (fun x => BitVec.getLsbD x i) hc
  simp only [BitVec.getLsbD_and, BitVec.getLsbD_or, BitVec.getLsbD_not] at *
  have hz : BitVec.getLsbD (0#64) i = false := by simp
  rw [hz] at h'
  revert h' c'
  cases off.getLsbD i <;> cases c.getLsbD i <;> cases BitVec.getLsbD 7#64 i <;> simp [hi]

theorem aligned_or_andnot3 (off : Word) (h : off &&& 7#64 = 0#64) :
    (off ||| 1#64) &&& ~~~3#64 = off := by
  have h0 : off &&& 3#64 = 0#64 := by
    have : (3#64 : Word) = 7#64 &&& 3#64 := by decide
    rw [this, ← BitVec.and_assoc, h]; decide
  apply BitVec.eq_of_getLsbD_eq
  intro i hi
  have h' := congrArg (fun x => BitVec.getLsbD x i) h0
  have c' := congrArg (fun x => BitVec.getLsbD x i) (show (1#64 : Word) &&& 3#64 = 1#64 by decide)
  simp only [BitVec.getLsbD_and, BitVec.getLsbD_or, BitVec.getLsbD_not] at *
  have hz : BitVec.getLsbD (0#64) i = false := by simp
  rw [hz] at h'
  revert h' c'
  cases off.getLsbD i <;> cases BitVec.getLsbD 1#64 i <;> cases BitVec.getLsbD 3#64 i <;> simp [hi]

theorem toInt_range (v : Word) : -9223372036854775808 ≤ v.toInt ∧ v.toInt < 9223372036854775808 := by
  have h1 := BitVec.le_toInt v
  have h2 := @BitVec.toInt_lt 64 v
  norm_num at h1 h2
  omega

theorem toNat_toInt (v : Word) : (v.toNat : Int) = v.toInt ∨ (v.toNat : Int) = v.toInt + 18446744073709551616 := by
  rw [BitVec.toInt_eq_toNat_cond]; split <;> simp

theorem shl_sshr_toInt3 (v : Word) : (v <<< 3).sshiftRight 3 = v ↔ -(2:Int)^60 ≤ v.toInt ∧ v.toInt < 2^60 := by
  rw [← BitVec.toInt_inj, BitVec.toInt_sshiftRight, BitVec.toInt_shiftLeft, Int.shiftRight_eq_div_pow,
    Nat.shiftLeft_eq]
  have h := toNat_toInt v
  have := toInt_range v
  have h3 := v.isLt
  simp only [Int.bmod]
  norm_num
  split <;> omega

theorem shl_sshr_toInt4 (v : Word) : (v <<< 4).sshiftRight 4 = v ↔ -(2:Int)^59 ≤ v.toInt ∧ v.toInt < 2^59 := by
  rw [← BitVec.toInt_inj, BitVec.toInt_sshiftRight, BitVec.toInt_shiftLeft, Int.shiftRight_eq_div_pow,
    Nat.shiftLeft_eq]
  have h := toNat_toInt v
  have := toInt_range v
  have h3 := v.isLt
  simp only [Int.bmod]
  norm_num
  split <;> omega

theorem shl_sshr_toInt8 (v : Word) : (v <<< 8).sshiftRight 8 = v ↔ -(2:Int)^55 ≤ v.toInt ∧ v.toInt < 2^55 := by
  rw [← BitVec.toInt_inj, BitVec.toInt_sshiftRight, BitVec.toInt_shiftLeft, Int.shiftRight_eq_div_pow,
    Nat.shiftLeft_eq]
  have h := toNat_toInt v
  have := toInt_range v
  have h3 := v.isLt
  simp only [Int.bmod]
  norm_num
  split <;> omega
theorem shl8_or_toNat (i c : BitVec 32) (hc : c.toNat < 256) :
    ((i <<< 8) ||| c).toNat = (i.toNat * 256 % 2^32) + c.toNat := by
  have h : (i <<< 8) &&& c = 0#32 := by
    apply BitVec.eq_of_getLsbD_eq
    intro j hj
    simp only [BitVec.getLsbD_and, BitVec.getLsbD_shiftLeft]
    by_cases h : j < 8
    · simp [h]
    · rw [getLsbD_small (c := c) (k := 8) (by simpa using hc) (by omega)]; simp
  rw [← BitVec.add_eq_or_of_and_eq_zero _ _ h, BitVec.toNat_add, BitVec.toNat_shiftLeft, Nat.shiftLeft_eq]
  omega

theorem toNat_toInt32 (v : BitVec 32) : (v.toNat : Int) = v.toInt ∨ (v.toNat : Int) = v.toInt + 4294967296 := by
  rw [BitVec.toInt_eq_toNat_cond]; split <;> simp

/-- Sign-extended `int` code words with a value of at most 24 bits, decoded arithmetically. -/
theorem ext_sshr (i c : BitVec 32) (hc : c.toNat < 256) (h1 : -8388608 ≤ i.toInt) (h2 : i.toInt < 8388608) :
    ((((i <<< 8) ||| c).signExtend 64).sshiftRight 8).toInt = i.toInt := by
  have h := shl8_or_toNat i c hc
  have h3 := toNat_toInt32 i
  have h4 := i.isLt
  rw [BitVec.toInt_sshiftRight, BitVec.toInt_signExtend, Int.shiftRight_eq_div_pow]
  have h5 := toNat_toInt32 ((i <<< 8) ||| c)
  have h6 := BitVec.le_toInt ((i <<< 8) ||| c)
  have h7 := @BitVec.toInt_lt 32 ((i <<< 8) ||| c)
  generalize ((i <<< 8) ||| c) = x at *
  simp only [Int.bmod]
  norm_num at h6 h7 ⊢
  split <;> omega

theorem ext_sshr_setWidth (i c : BitVec 32) (hc : c.toNat < 256) (h1 : -8388608 ≤ i.toInt)
    (h2 : i.toInt < 8388608) :
    ((((i <<< 8) ||| c).signExtend 64).sshiftRight 8).setWidth 32 = i := by
  rw [← BitVec.toInt_inj, BitVec.toInt_setWidth]
  have h := ext_sshr i c hc h1 h2
  generalize ((((i <<< 8) ||| c).signExtend 64).sshiftRight 8) = x at *
  have := toNat_toInt x
  have := toInt_range x
  have := x.isLt
  simp only [Int.bmod]
  norm_num
  split <;> omega

theorem ext_setWidth (x : BitVec 32) : (x.signExtend 64).setWidth 32 = x := by
  apply BitVec.eq_of_getLsbD_eq
  intro j hj
  simp only [BitVec.getLsbD_setWidth, BitVec.getLsbD_signExtend]
  simp [hj]; omega

theorem ext_ushr (i c : BitVec 32) (hc : c.toNat < 256) (h1 : 0 ≤ i.toInt) (h2 : i.toInt < 16777216) :
    (((i <<< 8) ||| c).signExtend 64).setWidth 32 >>> 8 = i := by
  rw [ext_setWidth, ← BitVec.toNat_inj, BitVec.toNat_ushiftRight, Nat.shiftRight_eq_div_pow]
  have h := shl8_or_toNat i c hc
  have h3 := toNat_toInt32 i
  have h4 := i.isLt
  omega

theorem ext_and_ff (i c : BitVec 32) :
    (((i <<< 8) ||| c).signExtend 64) &&& 0xff#64 = (c &&& 0xff#32).setWidth 64 := by
  apply BitVec.eq_of_getLsbD_eq
  intro j hj
  simp only [BitVec.getLsbD_and, BitVec.getLsbD_setWidth, BitVec.getLsbD_signExtend, BitVec.getLsbD_or,
    BitVec.getLsbD_shiftLeft]
  by_cases h : j < 8
  · have : j = 0 ∨ j = 1 ∨ j = 2 ∨ j = 3 ∨ j = 4 ∨ j = 5 ∨ j = 6 ∨ j = 7 := by omega
    rcases this with rfl|rfl|rfl|rfl|rfl|rfl|rfl|rfl <;> simp
  · rw [getLsbD_small (c := 0xff#64) (k := 8) (by decide) (by omega),
      getLsbD_small (c := 0xff#32) (k := 8) (by decide) (by omega)]; simp

/-- `x &&& k` for a narrower mask. -/
theorem and_mask {x a b c : Word} (h : x &&& a = b) (hc : a &&& c = c) : x &&& c = b &&& c := by
  rw [← h, BitVec.and_assoc, hc]

end WG
