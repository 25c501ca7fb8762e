import Verif.Journal.Model
import Verif.Dump.Lemmas
/-! Lemmas about journal coding. -/
namespace WG

theorem low7_bit (c : Byte) (i : Nat) : (low7 c).getLsbD i = (decide (i < 7) && c.getLsbD i) := by
  unfold low7
  rw [BitVec.getLsbD_setWidth, BitVec.getLsbD_and]
  by_cases h : i < 7
  · have : i = 0 ∨ i = 1 ∨ i = 2 ∨ i = 3 ∨ i = 4 ∨ i = 5 ∨ i = 6 := by omega
    rcases this with rfl|rfl|rfl|rfl|rfl|rfl|rfl <;> simp
  · by_cases h7 : i = 7
    · subst h7; simp
    · rw [BitVec.getLsbD_of_ge _ _ (by omega : 8 ≤ i)]; simp [h]

/-- The 7-bit digit `k` of a value. -/
def digit (v : Word) (k : Nat) : Word := (v >>> (7 * k)) &&& 0x7f#64

theorem mask7_bit (i : Nat) : (0x7f#64).getLsbD i = decide (i < 7) := by
  by_cases h : i < 64
  · have : ∀ j : Fin 64, (0x7f#64).getLsbD j = decide (j.val < 7) := by decide
    exact this ⟨i, h⟩
  · rw [BitVec.getLsbD_of_ge _ _ (by omega)]; simp; omega

theorem bit80_bit (i : Nat) : (0x80#64).getLsbD i = decide (i = 7) := by
  by_cases h : i < 64
  · have : ∀ j : Fin 64, (0x80#64).getLsbD j = decide (j.val = 7) := by decide
    exact this ⟨i, h⟩
  · rw [BitVec.getLsbD_of_ge _ _ (by omega)]; simp; omega

theorem low7_cont (v : Word) (k : Nat) : low7 (lowByte ((v >>> (7*k)) ||| 0x80#64)) = digit v k := by
  apply BitVec.eq_of_getLsbD_eq
  intro i hi
  unfold digit lowByte
  rw [low7_bit, BitVec.getLsbD_setWidth, BitVec.getLsbD_or, BitVec.getLsbD_and, bit80_bit, mask7_bit]
  by_cases h : i < 7
  · have : i ≠ 7 := by omega
    simp [h, this]; omega
  · simp [h]

theorem low7_end (v : Word) (k : Nat) :
    low7 (lowByte ((v >>> (7*k)) ||| 0x80#64) &&& 0x7f#8) = digit v k := by
  rw [← low7_cont]
  unfold low7
  congr 1
  rw [BitVec.and_assoc]; rfl

theorem more_cont (w : Word) : more (lowByte (w ||| 0x80#64)) = true := by
  unfold more
  have : (lowByte (w ||| 0x80#64) &&& 0x80#8).getLsbD 7 = true := by
    unfold lowByte; simp
  simp only [bne_iff_ne]
  intro h
  rw [h] at this
  simp at this

theorem more_end (c : Byte) : more (c &&& 0x7f#8) = false := by
  unfold more
  rw [BitVec.and_assoc]
  simp

theorem digit_bit (v : Word) (k i : Nat) : (digit v k).getLsbD i = (decide (i < 7) && v.getLsbD (7*k+i)) := by
  unfold digit
  rw [BitVec.getLsbD_and, mask7_bit, BitVec.getLsbD_ushiftRight]
  simp only [Bool.and_comm]

/-- Accumulating one more digit. -/
def acc (v : Word) : Nat → Word
  | 0 => digit v 0
  | k+1 => acc v k ||| digit v (k+1) <<< (7*(k+1))

theorem acc_bit (v : Word) (k i : Nat) (hi : i < 64) : (acc v k).getLsbD i = (decide (i < 7*(k+1)) && v.getLsbD i) := by
  induction k with
  | zero => simp only [acc]; rw [digit_bit]; simp
  | succ k ih =>
    simp only [acc]
    rw [BitVec.getLsbD_or, ih, BitVec.getLsbD_shiftLeft, digit_bit]
    by_cases h1 : i < 7*(k+1)
    · have : i < 7*(k+1+1) := by omega
      simp [h1, this]
    · by_cases h2 : i < 7*(k+1+1)
      · have e : 7*(k+1) + (i - 7*(k+1)) = i := by omega
        have h3 : i - 7*(k+1) < 7 := by omega
        simp only [h1, h2, h3, hi, e]; simp
      · have h3 : ¬ i - 7*(k+1) < 7 := by omega
        simp [h1, h2, h3]

theorem acc_eq (v : Word) (k : Nat) (h : v.toNat < 2^(7*(k+1))) : acc v k = v := by
  apply BitVec.eq_of_getLsbD_eq
  intro i hi
  rw [acc_bit _ _ _ hi]
  by_cases h1 : i < 7*(k+1)
  · simp [h1]
  · have : v.getLsbD i = false := by
      rw [BitVec.getLsbD]
      exact Nat.testBit_lt_two_pow (Nat.lt_of_lt_of_le h (Nat.pow_le_pow_right (by decide) (by omega)))
    simp [this]

theorem acc_last (v : Word) : acc v 7 ||| (lowByte (v >>> 56)).setWidth 64 <<< 56 = v := by
  apply BitVec.eq_of_getLsbD_eq
  intro i hi
  rw [BitVec.getLsbD_or, acc_bit _ _ _ hi, BitVec.getLsbD_shiftLeft, BitVec.getLsbD_setWidth]
  unfold lowByte
  rw [BitVec.getLsbD_setWidth, BitVec.getLsbD_ushiftRight]
  by_cases h : i < 56
  · simp [h]
  · have e : 56 + (i - 56) = i := by omega
    have h2 : i - 56 < 8 := by omega
    have h3 : i - 56 < 64 := by omega
    simp only [h, e, h2, h3, hi]; simp

theorem getVarint_enc (v : Word) (s : List Byte) : getVarint (encVarint v ++ s) = some (v, s) := by
  have hc : ∀ k, low7 (lowByte ((v >>> (7*k)) ||| 0x80#64)) = digit v k := low7_cont v
  have he : ∀ k, low7 (lowByte ((v >>> (7*k)) ||| 0x80#64) &&& 0x7f#8) = digit v k := low7_end v
  have h0 := hc 0; have h1 := hc 1; have h2 := hc 2; have h3 := hc 3
  have h4 := hc 4; have h5 := hc 5; have h6 := hc 6; have h7 := hc 7
  have e0 := he 0; have e1 := he 1; have e2 := he 2; have e3 := he 3
  have e4 := he 4; have e5 := he 5; have e6 := he 6; have e7 := he 7
  simp only [Nat.mul_zero, BitVec.ushiftRight_zero, Nat.reduceMul] at h0 h1 h2 h3 h4 h5 h6 h7 e0 e1 e2 e3 e4 e5 e6 e7
  have a := acc_eq v
  unfold encVarint
  simp only
  split
  · rename_i h
    have := a 0 (by simpa [BitVec.lt_def] using h)
    simp only [List.cons_append, List.nil_append, getVarint, more_end, e0, Bool.not_false, if_true]
    simp only [acc] at this; rw [this]
  split
  · rename_i _ h
    have := a 1 (by simpa [BitVec.lt_def] using h)
    simp only [List.cons_append, List.nil_append, getVarint, more_end, more_cont, h0, e1, Bool.not_false, Bool.not_true, Bool.false_eq_true, if_false, if_true]
    simp only [acc] at this; simp only [Nat.zero_add, Nat.reduceAdd, Nat.reduceMul] at this; rw [this]
  split
  · rename_i _ _ h
    have := a 2 (by simpa [BitVec.lt_def] using h)
    simp only [List.cons_append, List.nil_append, getVarint, more_end, more_cont, h0, h1, e2, Bool.not_false, Bool.not_true, Bool.false_eq_true, if_false, if_true]
    simp only [acc] at this; simp only [Nat.zero_add, Nat.reduceAdd, Nat.reduceMul] at this; rw [this]
  split
  · rename_i _ _ _ h
    have := a 3 (by simpa [BitVec.lt_def] using h)
    simp only [List.cons_append, List.nil_append, getVarint, more_end, more_cont, h0, h1, h2, e3, Bool.not_false, Bool.not_true, Bool.false_eq_true, if_false, if_true]
    simp only [acc] at this; simp only [Nat.zero_add, Nat.reduceAdd, Nat.reduceMul] at this; rw [this]
  split
  · rename_i _ _ _ _ h
    have := a 4 (by simpa [BitVec.lt_def] using h)
    simp only [List.cons_append, List.nil_append, getVarint, more_end, more_cont, h0, h1, h2, h3, e4, Bool.not_false, Bool.not_true, Bool.false_eq_true, if_false, if_true]
    simp only [acc] at this; simp only [Nat.zero_add, Nat.reduceAdd, Nat.reduceMul] at this; rw [this]
  split
  · rename_i _ _ _ _ _ h
    have := a 5 (by simpa [BitVec.lt_def] using h)
    simp only [List.cons_append, List.nil_append, getVarint, more_end, more_cont, h0, h1, h2, h3, h4, e5, Bool.not_false, Bool.not_true, Bool.false_eq_true, if_false, if_true]
    simp only [acc] at this; simp only [Nat.zero_add, Nat.reduceAdd, Nat.reduceMul] at this; rw [this]
  split
  · rename_i _ _ _ _ _ _ h
    have := a 6 (by simpa [BitVec.lt_def] using h)
    simp only [List.cons_append, List.nil_append, getVarint, more_end, more_cont, h0, h1, h2, h3, h4, h5, e6, Bool.not_false, Bool.not_true, Bool.false_eq_true, if_false, if_true]
    simp only [acc] at this; simp only [Nat.zero_add, Nat.reduceAdd, Nat.reduceMul] at this; rw [this]
  split
  · rename_i _ _ _ _ _ _ _ h
    have := a 7 (by simpa [BitVec.lt_def] using h)
    simp only [List.cons_append, List.nil_append, getVarint, more_end, more_cont, h0, h1, h2, h3, h4, h5, h6, e7, Bool.not_false, Bool.not_true, Bool.false_eq_true, if_false, if_true]
    simp only [acc] at this; simp only [Nat.zero_add, Nat.reduceAdd, Nat.reduceMul] at this; rw [this]
  · have := acc_last v
    simp only [List.cons_append, List.nil_append, getVarint, more_cont, h0, h1, h2, h3, h4, h5, h6, h7, Bool.not_true, Bool.false_eq_true, if_false]
    simp only [acc] at this; simp only [Nat.zero_add, Nat.reduceAdd, Nat.reduceMul] at this; rw [this]

theorem getVarint_ext (p s r : List Byte) (a : Word) (h : getVarint p = some (a, r)) :
    getVarint (p ++ s) = some (a, r ++ s) := by
  unfold getVarint at h
  repeat' (split at h)
  all_goals first
    | (cases h; done)
    | (cases h; simp_all [getVarint]; done)

theorem getVarint_lt (p r : List Byte) (a : Word) (h : getVarint p = some (a, r)) : r.length < p.length := by
  unfold getVarint at h
  repeat' (split at h)
  all_goals first
    | (cases h; done)
    | (cases h; simp; done)
    | (cases h; simp; omega)

theorem recoverEncode_ext (t : Byte) (p s r : List Byte) (d : EncData)
    (h : recoverEncode t p = some (d, r)) : recoverEncode t (p ++ s) = some (d, r ++ s) := by
  unfold recoverEncode at h ⊢
  by_cases h3 : t = 3#8
  · rw [if_pos h3] at h ⊢
    split at h
    · cases h
    · rename_i hl
      simp only [Option.some.injEq, Prod.mk.injEq] at h
      rw [if_neg (by simp; omega), ← h.1, ← h.2, List.drop_append_of_le_length (by omega)]
      have : le32 (p ++ s) 0 = le32 p 0 := le32_congr fun i hi => byteAt_append_left _ _ _ (by omega)
      rw [this]
  rw [if_neg h3] at h ⊢
  by_cases h4 : t = 4#8
  · rw [if_pos h4] at h ⊢
    split at h
    · cases h
    · rename_i hl
      simp only [Option.some.injEq, Prod.mk.injEq] at h
      rw [if_neg (by simp; omega), ← h.1, ← h.2, List.drop_append_of_le_length (by omega)]
      have : le64 (p ++ s) 0 = le64 p 0 := le64_congr fun i hi => byteAt_append_left _ _ _ (by omega)
      rw [this]
  rw [if_neg h4] at h ⊢
  by_cases h5 : isStrType t = true
  · rw [if_pos h5] at h ⊢
    cases h1 : getVarint p with
    | none => rw [h1] at h; cases h
    | some x1 =>
      obtain ⟨len, s1⟩ := x1
      rw [h1] at h
      rw [getVarint_ext _ _ _ _ h1]
      simp only at h ⊢
      cases h2 : getVarint s1 with
      | none => rw [h2] at h; cases h
      | some x2 =>
        obtain ⟨ext, s2⟩ := x2
        rw [h2] at h
        rw [getVarint_ext _ _ _ _ h2]
        simp only at h ⊢
        split at h
        · cases h
        · rename_i hl
          split at h
          · cases h
          · rename_i hl2
            simp only [Option.some.injEq, Prod.mk.injEq] at h
            rw [if_neg (by simp; omega), List.drop_append_of_le_length (by omega),
              if_neg (by simp at hl2 ⊢; omega), List.take_append_of_le_length (by omega),
              List.take_append_of_le_length (by omega), List.drop_append_of_le_length (by omega), ← h.1, ← h.2]
  · rw [if_neg h5] at h ⊢
    simp only [Option.some.injEq, Prod.mk.injEq] at h
    rw [← h.1, ← h.2]

theorem readEntry_ext (p s r : List Byte) (e : Entry) (h : readEntry p = some (e, r)) :
    readEntry (p ++ s) = some (e, r ++ s) := by
  cases p with
  | nil => cases h
  | cons c p =>
    rw [List.cons_append]
    unfold readEntry at h ⊢
    simp only at h ⊢
    by_cases c1 : c &&& 0xe0#8 = 0x40#8
    · simp only [c1, if_true] at h ⊢
      cases h1 : getVarint p with
      | none => simp [h1] at h
      | some x1 =>
        obtain ⟨a1, s1⟩ := x1
        cases h2 : getVarint s1 with
        | none => simp [h1, h2] at h
        | some x2 =>
          obtain ⟨a2, s2⟩ := x2
          simp only [h1, h2, Option.some.injEq, Prod.mk.injEq] at h
          simp only [getVarint_ext _ _ _ _ h1, getVarint_ext _ _ _ _ h2, h]
    rw [if_neg c1] at h ⊢
    by_cases c2 : c &&& 0xe0#8 = 0x80#8
    · simp only [c2, if_true] at h ⊢
      cases h1 : getVarint p with
      | none => simp [h1] at h
      | some x1 =>
        obtain ⟨a1, s1⟩ := x1
        simp only [h1, Option.some.injEq, Prod.mk.injEq] at h
        simp only [getVarint_ext _ _ _ _ h1, h]
    rw [if_neg c2] at h ⊢
    by_cases c3 : c &&& 0xe0#8 = 0#8
    · simp only [c3, if_true] at h ⊢
      cases h1 : recoverEncode (c &&& 0x1f#8) p with
      | none => simp [h1] at h
      | some x1 =>
        obtain ⟨a1, s1⟩ := x1
        cases h2 : getVarint s1 with
        | none => simp [h1, h2] at h
        | some x2 =>
          obtain ⟨a2, s2⟩ := x2
          simp only [h1, h2, Option.some.injEq, Prod.mk.injEq] at h
          simp only [recoverEncode_ext _ _ _ _ _ h1, getVarint_ext _ _ _ _ h2, h]
    rw [if_neg c3] at h ⊢
    by_cases c4 : c &&& 0xe0#8 = 0xc0#8
    · simp only [c4, if_true] at h ⊢
      cases h1 : getVarint p with
      | none => simp [h1] at h
      | some x1 =>
        obtain ⟨a1, s1⟩ := x1
        cases h2 : getVarint s1 with
        | none => simp [h1, h2] at h
        | some x2 =>
          obtain ⟨a2, s2⟩ := x2
          cases h3 : getVarint s2 with
          | none => simp [h1, h2, h3] at h
          | some x3 =>
            obtain ⟨a3, s3⟩ := x3
            simp only [h1, h2, h3, Option.some.injEq, Prod.mk.injEq] at h
            simp only [getVarint_ext _ _ _ _ h1, getVarint_ext _ _ _ _ h2, getVarint_ext _ _ _ _ h3, h]
    rw [if_neg c4] at h ⊢
    by_cases c5 : c &&& 0xe0#8 = 0x20#8
    · simp only [c5, if_true] at h ⊢
      cases h1 : getVarint p with
      | none => simp [h1] at h
      | some x1 =>
        obtain ⟨a1, s1⟩ := x1
        cases h2 : getVarint s1 with
        | none => simp [h1, h2] at h
        | some x2 =>
          obtain ⟨a2, s2⟩ := x2
          simp only [h1, h2, Option.some.injEq, Prod.mk.injEq] at h
          simp only [getVarint_ext _ _ _ _ h1, getVarint_ext _ _ _ _ h2, h]
    rw [if_neg c5] at h
    cases h

/-! ## Reading back what was written -/

/-- The operations whose log record is faithful: no 64-bit integer outside the inline range, and no new
string object with extra data. String lengths are below 2^64 (they are C lengths) and string types are the
five valid ones. -/
def LogOp.Plain : LogOp → Prop
  | .encInt _ _ => False
  | .encStr t data ext nested _ => nested = none ∧ isStrType t = true ∧ data.length < 2^64 ∧ ext.length < 2^64
  | _ => True

/-- The journal entry an operation stands for. -/
def LogOp.entry : LogOp → Entry
  | .create l o => .cre l o
  | .delete o => .del o
  | .encInt v e => .enc (.int (v.setWidth 32)) e
  | .encDouble v e => .enc (.double v) e
  | .encStr t d x _ e => .enc (.str t d x) e
  | .set o c e => .set o c e
  | .setMeta o m => .setMeta o m

theorem recoverEncode_str (t : Byte) (d x s : List Byte) (ht : isStrType t = true) (hd : d.length < 2^64)
    (hx : x.length < 2^64) :
    recoverEncode t (encVarint (BitVec.ofNat 64 d.length) ++ encVarint (BitVec.ofNat 64 x.length) ++ d ++ x ++ s)
      = some (.str t d x, s) := by
  unfold recoverEncode
  have n3 : t ≠ 3#8 := by rintro rfl; revert ht; decide
  have n4 : t ≠ 4#8 := by rintro rfl; revert ht; decide
  rw [if_neg n3, if_neg n4, if_pos ht]
  simp only [List.append_assoc, getVarint_enc]
  have e1 : (BitVec.ofNat 64 d.length).toNat = d.length := by simp; omega
  have e2 : (BitVec.ofNat 64 x.length).toNat = x.length := by simp; omega
  rw [e1, e2, if_neg (by simp)]
  simp

theorem readEntry_op (op : LogOp) (hp : op.Plain) (s : List Byte) :
    readEntry (op.bytes ++ s) = some (op.entry, s) := by
  cases op with
  | create l o => simp [LogOp.bytes, LogOp.entry, readEntry, getVarint_enc]
  | delete o => simp [LogOp.bytes, LogOp.entry, readEntry, getVarint_enc]
  | encInt v e => exact hp.elim
  | encDouble v e =>
    have h8 : (bytes64 v).length = 8 := length_bytes64 v
    have : recoverEncode 4#8 (bytes64 v ++ (encVarint e ++ s)) = some (.double v, encVarint e ++ s) := by
      unfold recoverEncode
      rw [if_neg (by decide), if_pos rfl, if_neg (by simp [h8])]
      have e1 : le64 (bytes64 v ++ (encVarint e ++ s)) 0 = v := by
        rw [le64_congr (b := bytes64 v) (y := 0) fun i hi => byteAt_append_left _ _ _ (by omega), le64_bytes64]
      rw [e1, List.drop_append_of_le_length (by omega), List.drop_of_length_le (by omega)]; rfl
    simp [LogOp.bytes, LogOp.entry, readEntry, this, getVarint_enc]
  | encStr t d x n e =>
    obtain ⟨rfl, ht, hd, hx⟩ := hp
    have hcmd : t &&& 0xe0#8 = 0#8 ∧ t &&& 0x1f#8 = t := by
      simp only [isStrType, Bool.or_eq_true, beq_iff_eq] at ht
      rcases ht with (((h|h)|h)|h)|h <;> subst h <;> decide
    have := recoverEncode_str t d x (encVarint e ++ s) ht hd hx
    simp only [LogOp.bytes, logStr, List.cons_append, readEntry, hcmd.1, hcmd.2]
    simp only [List.append_assoc] at this ⊢
    simp [this, getVarint_enc, LogOp.entry]
  | set o c e => simp [LogOp.bytes, LogOp.entry, readEntry, getVarint_enc]
  | setMeta o m => simp [LogOp.bytes, LogOp.entry, readEntry, getVarint_enc]

theorem op_bytes_ne (op : LogOp) (hp : op.Plain) : op.bytes ≠ [] := by
  cases op <;> simp_all [LogOp.bytes, LogOp.Plain, logStr]

/-- A strict prefix of an operation's bytes is not readable as an entry. -/
theorem readEntry_strict (op : LogOp) (hp : op.Plain) (p q : List Byte) (hq : q ≠ [])
    (h : op.bytes = p ++ q) : readEntry p = none := by
  cases hr : readEntry p with
  | none => rfl
  | some x =>
    obtain ⟨e, r⟩ := x
    have h1 := readEntry_ext p q r e hr
    have h2 := readEntry_op op hp []
    rw [List.append_nil, h, h1] at h2
    simp only [Option.some.injEq, Prod.mk.injEq, List.append_eq_nil_iff] at h2
    exact absurd h2.2.2 hq

theorem readLoop_cons (op : LogOp) (hp : op.Plain) (s : List Byte) (fuel : Nat) :
    readLoop (fuel+1) (op.bytes ++ s) = (op.entry :: (readLoop fuel s).1, (readLoop fuel s).2) := by
  have hne := op_bytes_ne op hp
  cases hb : op.bytes with
  | nil => exact absurd hb hne
  | cons c t =>
    rw [List.cons_append, readLoop, ← List.cons_append, ← hb, readEntry_op op hp]

theorem readLoop_take (ops : List LogOp) (hp : ∀ op ∈ ops, op.Plain) :
    ∀ (k fuel : Nat), k ≤ (journalOf ops).length → k ≤ fuel →
    ∃ n, n ≤ ops.length ∧
      readLoop fuel ((journalOf ops).take k) =
        ((ops.take n).map LogOp.entry, decide ((journalOf (ops.take n)).length = k)) ∧
      (journalOf (ops.take n)).length ≤ k ∧
      (n < ops.length → k < (journalOf (ops.take (n+1))).length) := by
  induction ops with
  | nil =>
    intro k fuel hk _
    have : k = 0 := by simpa [journalOf] using hk
    subst this
    exact ⟨0, by simp, by cases fuel <;> simp [journalOf, readLoop], by simp [journalOf], by simp⟩
  | cons op ops ih =>
    intro k fuel hk hf
    have hop := hp op (by simp)
    have hpos : 0 < op.bytes.length := List.length_pos_iff.2 (op_bytes_ne op hop)
    have hj : journalOf (op :: ops) = op.bytes ++ journalOf ops := by simp [journalOf]
    by_cases hlt : k < op.bytes.length
    · refine ⟨0, by simp, ?_, by simp [journalOf], ?_⟩
      · rw [hj, List.take_append_of_le_length (by omega)]
        by_cases h0 : k = 0
        · subst h0; cases fuel <;> simp [journalOf, readLoop]
        · have hs := readEntry_strict op hop (op.bytes.take k) (op.bytes.drop k)
            (by intro hh; have := congrArg List.length hh; simp at this; omega) (by simp)
          cases hb : op.bytes.take k with
          | nil => have := congrArg List.length hb; rw [List.length_take, List.length_nil] at this; omega
          | cons c t =>
            rw [hb] at hs
            cases fuel with
            | zero => omega
            | succ f =>
              have : ¬ 0 = k := fun h => h0 h.symm
              simp [readLoop, hs, journalOf, this]
      · intro _; simp [journalOf]; omega
    · have hk' : k - op.bytes.length ≤ (journalOf ops).length := by
        rw [hj] at hk; simp at hk; omega
      cases fuel with
      | zero => omega
      | succ f =>
        obtain ⟨n, h1, h2, h3, h4⟩ := ih (fun o ho => hp o (by simp [ho])) (k - op.bytes.length) f hk' (by omega)
        have hjn : ∀ m, journalOf ((op :: ops).take (m+1)) = op.bytes ++ journalOf (ops.take m) := by
          intro m; simp [journalOf]
        refine ⟨n+1, by simp; omega, ?_, ?_, ?_⟩
        · have hsplit : (op.bytes ++ journalOf ops).take k = op.bytes ++ (journalOf ops).take (k - op.bytes.length) := by
            rw [List.take_append, List.take_of_length_le (by omega)]
          rw [hj, hsplit, readLoop_cons op hop, h2, hjn]
          simp only [List.take_succ_cons, List.map_cons, Prod.mk.injEq, true_and, decide_eq_decide,
            List.length_append]
          omega
        · rw [hjn]; simp; omega
        · intro hn
          rw [hjn]
          have := h4 (by simp at hn; omega)
          simp; omega

end WG
