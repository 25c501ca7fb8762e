import Verif.Param.Spec
/-! # Reading parameters back -/
namespace WG.Param

theorem al {o : Word} (h : Aligned o) : o.toNat % 8 = 0 := by
  have : (o &&& 7#64).toNat = 0 := by rw [h]; rfl
  rwa [and7] at this

theorem al_add {o : Word} (h : Aligned o) {n : Nat} (hn : n % 8 = 0) : Aligned (o + BitVec.ofNat 64 n) := by
  have := al h
  unfold Aligned
  apply BitVec.eq_of_toNat_eq
  rw [and7, BitVec.toNat_add, BitVec.toNat_ofNat]
  show _ = 0
  omega

/-- Words of a block agree when its bytes do. -/
theorem Agree.word {A : Word → Prop} {m m' : Mem} (h : Agree A m m') {o : Word} (ho : o.toNat % 8 = 0) (hA : ∀ a, InBlock o 8 a → A a) : m' o = m o := by
  have hlt := o.isLt
  refine word_of_bytes ho fun i hi => ?_
  have := h (o + BitVec.ofNat 64 i) (hA _ (by unfold InBlock; rw [toNat_add_ofNat (by omega)]; omega))
  exact this

/-- A string in the memory. -/
def IsStr (m : Mem) (o : Word) (l : Str) : Prop := ∀ a, InBlock o (l.length + 1) a → (proc m).byte a = (l ++ [0#8]).getD (a.toNat - o.toNat) 0#8

theorem IsStr.cstr {m : Mem} {o : Word} {l : Str} (h : IsStr m o l) (h0 : 0#8 ∉ l) (hs : o.toNat + l.length + 1 ≤ 2 ^ 64) : (proc m).cstr o = l := by
  refine cstr_eq h0 (by show _ < 2 ^ 64; omega) (fun i hi => ?_) ?_
  · have e : (o + BitVec.ofNat 64 i).toNat = o.toNat + i := toNat_add_ofNat (by omega)
    rw [h _ (by unfold InBlock; omega), e, show o.toNat + i - o.toNat = i by omega]
    simp [hi, List.getElem?_append_left]
  · have e : (o + BitVec.ofNat 64 l.length).toNat = o.toNat + l.length := toNat_add_ofNat (by omega)
    rw [h _ (by unfold InBlock; omega), e, show o.toNat + l.length - o.toNat = l.length by omega]
    simp

theorem IsStr.agree {A : Word → Prop} {m m' : Mem} {o : Word} {l : Str} (h : IsStr m o l) (ha : Agree A m m') (hA : ∀ a, InBlock o (l.length + 1) a → A a) : IsStr m' o l :=
  fun a hb => (ha a (hA a hb)).trans (h a hb)

theorem IsStr.copy (m : Mem) {o : Word} (l : Str) (ho : o.toNat + l.length + 1 ≤ 2 ^ 64) : IsStr (copy m o (l ++ [0#8])) o l := by
  intro a hb
  unfold InBlock at hb
  rw [byte_copy _ _ _ _ _ (by simp only [List.length_append, List.length_singleton]; omega), if_pos (by simp only [List.length_append, List.length_singleton]; omega)]

/-! ## Tags -/
section
variable {o : Word} (ho : Aligned o)
include ho

theorem tag_short : encodeShortstr o &&& 7#64 = 6#64 := by unfold encodeShortstr; rw [aligned_or_and _ _ _ ho (by decide)]; decide
theorem tag_long : encodeLongstr o &&& 7#64 = 4#64 := by unfold encodeLongstr; rw [aligned_or_and _ _ _ ho (by decide)]; decide
theorem tag_dbl : encodeFulldouble o &&& 7#64 = 2#64 := by unfold encodeFulldouble; rw [aligned_or_and _ _ _ ho (by decide)]; decide
theorem tag_int : encodeFullintOffset o &&& 7#64 = 1#64 := by unfold encodeFullintOffset; rw [aligned_or_and _ _ _ ho (by decide)]; decide
theorem dec_short : decodeShortstr (encodeShortstr o) = o := aligned_or_andnot _ _ ho (by decide)
theorem dec_long : decodeLongstr (encodeLongstr o) = o := aligned_or_andnot _ _ ho (by decide)
theorem dec_dbl : decodeFulldouble (encodeFulldouble o) = o := aligned_or_andnot _ _ ho (by decide)
theorem dec_int : decodeFullintOffset (encodeFullintOffset o) = o := aligned_or_andnot3 _ ho
end

theorem tag3 {w t : Word} (h : w &&& 7#64 = t) : w &&& 3#64 = t &&& 3#64 := and_mask h (by decide)
theorem tag_ne {w t : Word} (h : w &&& 7#64 = t) (h0 : t ≠ 0#64) : w ≠ 0#64 := by rintro rfl; simp at h; exact h0 h.symm

/-- Reading a short string. -/
theorem sameRead_short {m m' : Mem} {w : Word} (h : w &&& 7#64 = 6#64) (hc : (proc m').cstr (decodeShortstr w) = (proc m).cstr (decodeShortstr w)) : SameRead m m' w := by
  have h3 := tag3 h
  have h0 := tag_ne h (by decide)
  have ht : ∀ m, getEncodedType m w = some .str := by intro m; unfold getEncodedType; rw [h3, h]; simp [h0]
  refine ⟨by rw [ht, ht], ?_, ?_, ?_, ?_, fun e => ?_, fun e => ?_⟩
  · simp [decodeInt, isSmallint, isFullint, h, h3]
  · simp [decodeDouble, isFulldouble, h]
  · simp [decodeUnistr, isShortstr, h, hc]
  · simp [decodeUnistrLang, isLongstr, h]
  · rw [ht] at e; cases e
  · rw [ht] at e; cases e

/-- Reading a long string that is not a blob. -/
theorem sameRead_long {m m' : Mem} {w : Word} {t : WType} (h : w &&& 7#64 = 4#64) (ht : getEncodedType m w = some t) (hb : t ≠ .blob)
    (h8 : m' (decodeLongstr w + 8#64) = m (decodeLongstr w + 8#64)) (hc : (proc m').cstr (decodeLongstr w + 48#64) = (proc m).cstr (decodeLongstr w + 48#64))
    (he : decodeUnistrLang (proc m') w = decodeUnistrLang (proc m) w) : SameRead m m' w := by
  have h3 := tag3 h
  have h0 := tag_ne h (by decide)
  refine ⟨?_, ?_, ?_, ?_, he, fun e => ?_, fun e => ?_⟩
  · unfold getEncodedType dbfetch; rw [h8]
  · simp [decodeInt, isSmallint, isFullint, h, h3]
  · simp [decodeDouble, isFulldouble, h]
  · simp [decodeUnistr, isShortstr, isLongstr, h, hc]
  · rw [ht] at e; cases e; exact absurd rfl hb
  · unfold getEncodedType at e; rw [h3, h] at e; simp [h0] at e
    unfold typeOfCode at e; split_ifs at e <;> cases e

theorem sameRead_int {m m' : Mem} {w : Word} (h : w &&& 7#64 = 1#64) (hc : m' (decodeFullintOffset w) = m (decodeFullintOffset w)) : SameRead m m' w := by
  have h3 := tag3 h
  have h0 := tag_ne h (by decide)
  have ht : ∀ m, getEncodedType m w = some .int := by intro m; unfold getEncodedType; rw [h3, h]; simp [h0]
  refine ⟨by rw [ht, ht], ?_, ?_, ?_, ?_, fun e => ?_, fun e => ?_⟩
  · simp [decodeInt, isSmallint, isFullint, dbfetch, h, h3, hc]
  · simp [decodeDouble, isFulldouble, h]
  · simp [decodeUnistr, isShortstr, isLongstr, h]
  · simp [decodeUnistrLang, isLongstr, h]
  · rw [ht] at e; cases e
  · rw [ht] at e; cases e

theorem sameRead_dbl {m m' : Mem} {w : Word} (h : w &&& 7#64 = 2#64) (hc : m' (decodeFulldouble w) = m (decodeFulldouble w)) : SameRead m m' w := by
  have h3 := tag3 h
  have h0 := tag_ne h (by decide)
  have ht : ∀ m, getEncodedType m w = some .double := by intro m; unfold getEncodedType; rw [h3, h]; simp [h0]
  refine ⟨by rw [ht, ht], ?_, ?_, ?_, ?_, fun e => ?_, fun e => ?_⟩
  · simp [decodeInt, isSmallint, isFullint, h, h3]
  · simp [decodeDouble, isFulldouble, dbfetch, h, hc]
  · simp [decodeUnistr, isShortstr, isLongstr, h]
  · simp [decodeUnistrLang, isLongstr, h]
  · rw [ht] at e; cases e
  · rw [ht] at e; cases e

theorem isPtr_of {w t : Word} (h : w &&& 7#64 = t) (h0 : t ≠ 0#64) (h3 : t &&& 3#64 ≠ 3#64) : isPtr w = true := by
  have := tag3 h
  simp [isPtr, tag_ne h h0, this, h3]

/-- Storing a word changes nothing outside a block that contains it. -/
theorem agree_store {m : Mem} {o x v : Word} {n : Nat} (hx : x.toNat % 8 = 0) (h1 : o.toNat ≤ x.toNat) (h2 : x.toNat + 8 ≤ o.toNat + n) :
    Agree (fun a => ¬ InBlock o n a) m (dbstore m x v) := by
  intro a ha
  refine byte_store m _ fun e => ha ?_
  have := congrArg BitVec.toNat e
  rw [base7] at this
  unfold InBlock
  omega

theorem agree_copy {m : Mem} {o x : Word} {l : Str} {n : Nat} (h1 : o.toNat ≤ x.toNat) (h2 : x.toNat + l.length ≤ o.toNat + n) (h3 : o.toNat + n ≤ 2 ^ 64) :
    Agree (fun a => ¬ InBlock o n a) m (copy m x l) := by
  intro a ha
  rw [byte_copy _ _ _ _ _ (by omega), if_neg]
  unfold InBlock at ha
  omega

theorem Agree.trans {A : Word → Prop} {m1 m2 m3 : Mem} (h1 : Agree A m1 m2) (h2 : Agree A m2 m3) : Agree A m1 m3 := fun a ha => (h2 a ha).trans (h1 a ha)
theorem Agree.mono {A B : Word → Prop} {m1 m2 : Mem} (h1 : Agree A m1 m2) (h : ∀ a, B a → A a) : Agree B m1 m2 := fun a ha => h1 a (h a ha)

end WG.Param
