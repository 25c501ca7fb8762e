import Verif.Param.Lemmas
/-! # What the encoders of parameters produce -/
namespace WG.Param

/-- Integers that are stored in a block. -/
theorem encoded_int {m : Mem} {o v : Word} (ha : Aligned o) (hs : o.toNat + 8 ≤ 2 ^ 64) :
    Encoded m (dbstore m o v) (encodeFullintOffset o) o 8 .int ∧ decodeInt (dbstore m o v) (encodeFullintOffset o) = some v := by
  have h7 := tag_int ha
  have h3 := tag3 h7
  have h0 := tag_ne h7 (by decide)
  refine ⟨⟨agree_store (al ha) (by omega) (by omega), fun m' hm => sameRead_int h7 ?_, ?_, ⟨.fullint o, ha, rfl⟩, ?_⟩, ?_⟩
  · rw [dec_int ha]; exact hm.word (al ha) (fun a h => h)
  · unfold getEncodedType; rw [h3, h7]; simp [h0]
  · simp [freeParam, isPtr_of h7 (by decide) (by decide), h7, dec_int ha]
  · simp [decodeInt, isSmallint, isFullint, h7, h3, dec_int ha, dbfetch, dbstore]

/-- Doubles. -/
theorem encoded_double {m : Mem} {o v : Word} (ha : Aligned o) (hs : o.toNat + 16 ≤ 2 ^ 64) :
    Encoded m (dbstore m o v) (encodeFulldouble o) o 16 .double ∧ decodeDouble (dbstore m o v) (encodeFulldouble o) = some v := by
  have h7 := tag_dbl ha
  have h3 := tag3 h7
  have h0 := tag_ne h7 (by decide)
  refine ⟨⟨agree_store (al ha) (by omega) (by omega), fun m' hm => sameRead_dbl h7 ?_, ?_, ⟨.double o, ha, rfl⟩, ?_⟩, ?_⟩
  · rw [dec_dbl ha]; exact hm.word (al ha) (fun a h => by unfold InBlock at h ⊢; omega)
  · unfold getEncodedType; rw [h3, h7]; simp [h0]
  · simp [freeParam, isPtr_of h7 (by decide) (by decide), h7, dec_dbl ha]
  · simp [decodeDouble, isFulldouble, h7, dec_dbl ha, dbfetch, dbstore]

/-- Strings without language. -/
theorem encoded_short {m : Mem} {o : Word} {l : Str} (h0 : 0#8 ∉ l) (ha : Aligned o) (hs : o.toNat + (l.length + 1) ≤ 2 ^ 64) :
    Encoded m (copy m o (l ++ [0#8])) (encodeShortstr o) o (l.length + 1) .str ∧ decodeUnistr (proc (copy m o (l ++ [0#8]))) (encodeShortstr o) = some l ∧
      decodeUnistrLang (proc (copy m o (l ++ [0#8]))) (encodeShortstr o) = none := by
  have h7 := tag_short ha
  have h3 := tag3 h7
  have hn := tag_ne h7 (by decide)
  have hc := IsStr.copy m (o := o) l (by omega)
  refine ⟨⟨agree_copy (by omega) (by simp) hs, fun m' hm => sameRead_short h7 ?_, ?_, ⟨.shortstr o, ha, rfl⟩, ?_⟩, ?_, ?_⟩
  · rw [dec_short ha, hc.cstr h0 (by omega), (hc.agree hm fun a h => h).cstr h0 (by omega)]
  · unfold getEncodedType; rw [h3, h7]; simp [hn]
  · simp [freeParam, isPtr_of h7 (by decide) (by decide), h7, dec_short ha]
  · simp [decodeUnistr, isShortstr, h7, dec_short ha, hc.cstr h0 (by omega)]
  · simp [decodeUnistrLang, isLongstr, h7]

/-- A long string in memory. -/
structure Layout (m : Mem) (o : Word) (n : Nat) (data : Str) (t : Word) (ext : Option Str) : Prop where
  type : m (o + 8#64) &&& 0xff#64 = t
  str : IsStr m (o + 48#64) data
  inside : 48 + data.length + 1 ≤ n
  ext : match ext with
    | none => m (o + 40#64) = 0#64
    | some e => ∃ x, Aligned x ∧ m (o + 40#64) = encodeShortstr x ∧ IsStr m x e ∧ o.toNat ≤ x.toNat ∧ x.toNat + e.length + 1 ≤ o.toNat + n

theorem Layout.agree {m m' : Mem} {o : Word} {n : Nat} {data : Str} {t : Word} {ext : Option Str} (h : Layout m o n data t ext) (ha : Aligned o) (hs : o.toNat + n ≤ 2 ^ 64)
    (hm : Agree (InBlock o n) m m') : m' (o + 8#64) = m (o + 8#64) ∧ m' (o + 40#64) = m (o + 40#64) ∧ Layout m' o n data t ext := by
  have hi := h.inside
  have a0 := al ha
  have e8 : (o + 8#64).toNat = o.toNat + 8 := toNat_add_ofNat (i := 8) (by omega)
  have e40 : (o + 40#64).toNat = o.toNat + 40 := toNat_add_ofNat (i := 40) (by omega)
  have e48 : (o + 48#64).toNat = o.toNat + 48 := toNat_add_ofNat (i := 48) (by omega)
  have w8 := hm.word (o := o + 8#64) (by omega) (fun a h => by unfold InBlock at *; omega)
  have w40 := hm.word (o := o + 40#64) (by omega) (fun a h => by unfold InBlock at *; omega)
  refine ⟨w8, w40, by rw [w8]; exact h.type, h.str.agree hm (fun a h => by unfold InBlock at *; omega), hi, ?_⟩
  have he := h.ext
  cases ext with
  | none => simpa [w40] using he
  | some e =>
    obtain ⟨x, x1, x2, x3, x4, x5⟩ := he
    exact ⟨x, x1, by rw [w40, x2], x3.agree hm (fun a h => by unfold InBlock at *; omega), x4, x5⟩

/-- What is read from a long string. -/
theorem Layout.read {m : Mem} {o : Word} {n : Nat} {data : Str} {t : Word} {ext : Option Str} (h : Layout m o n data t ext) (ha : Aligned o) (hs : o.toNat + n ≤ 2 ^ 64)
    (h0 : 0#8 ∉ data) (he : ∀ e, ext = some e → 0#8 ∉ e) :
    getEncodedType m (encodeLongstr o) = typeOfCode t ∧ (proc m).cstr (o + 48#64) = data ∧ decodeUnistrLang (proc m) (encodeLongstr o) = ext := by
  have h7 := tag_long ha
  have h3 := tag3 h7
  have hn := tag_ne h7 (by decide)
  have hi := h.inside
  have e48 : (o + 48#64).toNat = o.toNat + 48 := toNat_add_ofNat (i := 48) (by omega)
  refine ⟨?_, h.str.cstr h0 (by omega), ?_⟩
  · unfold getEncodedType; rw [h3, h7]; simp [hn, dbfetch, dec_long ha, h.type]
  · have hx := h.ext
    unfold decodeUnistrLang
    simp only [isLongstr, h7, dec_long ha, beq_self_eq_true, if_true]
    cases ext with
    | none => simp only at hx; rw [hx]; simp
    | some e =>
      obtain ⟨x, x1, x2, x3, x4, x5⟩ := hx
      have y7 := tag_short x1
      rw [x2, if_neg (tag_ne y7 (by decide))]
      simp [decodeUnistr, isShortstr, y7, dec_short x1, x3.cstr (he e rfl) (by omega)]

theorem Layout.encoded {m0 m : Mem} {o : Word} {n : Nat} {data : Str} {t : Word} {ext : Option Str} {T : WType} (h : Layout m o n data t ext) (ha : Aligned o) (hs : o.toNat + n ≤ 2 ^ 64)
    (h0 : 0#8 ∉ data) (he : ∀ e, ext = some e → 0#8 ∉ e) (hw : Agree (fun a => ¬ InBlock o n a) m0 m) (hT : t = 5#64 ∧ T = .str ∨ t = 6#64 ∧ T = .xmlliteral ∨ t = 7#64 ∧ T = .uri) :
    Encoded m0 m (encodeLongstr o) o n T ∧ decodeUnistr (proc m) (encodeLongstr o) = some data ∧ decodeUnistrLang (proc m) (encodeLongstr o) = ext := by
  have h7 := tag_long ha
  have h3 := tag3 h7
  obtain ⟨r1, r2, r3⟩ := h.read ha hs h0 he
  have hty : typeOfCode t = some T ∧ T ≠ .blob ∧ (t.toNat : Int) = T.code ∧ (T = .str ∨ T = .xmlliteral ∨ T = .uri ∨ T = .blob ∨ T = .anonconst) := by
    rcases hT with ⟨rfl, rfl⟩ | ⟨rfl, rfl⟩ | ⟨rfl, rfl⟩ <;> refine ⟨by decide, by decide, by decide, by decide⟩
  rw [hty.1] at r1
  refine ⟨⟨hw, fun m' hm => ?_, r1, ⟨.longstr o T, ⟨ha, hty.2.2.2, ?_⟩, rfl⟩, ?_⟩, ?_, r3⟩
  · obtain ⟨w8, w40, h'⟩ := h.agree ha hs hm
    obtain ⟨s1, s2, s3⟩ := h'.read ha hs h0 he
    refine sameRead_long h7 r1 hty.2.1 ?_ ?_ ?_
    · rw [dec_long ha, w8]
    · rw [dec_long ha, r2, s2]
    · rw [r3, s3]
  · rw [h.type]; exact hty.2.2.1
  · simp [freeParam, isPtr_of h7 (by decide) (by decide), h7, dec_long ha]
  · simp [decodeUnistr, isShortstr, isLongstr, h7, dec_long ha, r2]

theorem meta_type (d : Word) {t : Word} (ht : t = 5#64 ∨ t = 6#64 ∨ t = 7#64) : ((d <<< 8) ||| t) &&& 0xff#64 = t := by
  rw [shl_or_and _ _ _ 8 (by decide)]
  rcases ht with rfl | rfl | rfl <;> decide

end WG.Param
