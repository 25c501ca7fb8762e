import Verif.Compare.Lemmas
/-!
# C06, C07: comparison of values

`s` is any memory segment and `V` any set of values of that database (`ValueSet`): well-formed, free of NaN,
closed under taking record fields; the records may form any graph.
-/
namespace WG
open Std

/-- WG_COMPARE is the specified order at depth 7. -/
theorem WG_COMPARE_spec {s : Seg} {V : Word → Prop} (hV : ValueSet s V) (a b : Word) (ha : V a) (hb : V b) :
    WG_COMPARE s a b = ordInt (specCmp s 7 a b) := cmpD_spec hV.ordered 7 a b ha hb

/-- C06: the comparison is reflexive and its sign flips when the arguments are swapped. -/
theorem C06_antisymm {s : Seg} {V : Word → Prop} (hV : ValueSet s V) (a b : Word) (ha : V a) (hb : V b) :
    WG_COMPARE s a a = 0 ∧ WG_COMPARE s a b = - WG_COMPARE s b a ∧
    (WG_COMPARE s a b = -1 ∨ WG_COMPARE s a b = 0 ∨ WG_COMPARE s a b = 1) :=
  cmp_antisymm hV.ordered a b ha hb

/-- C06: the comparison is transitive (≤ and <, and equality is compatible with both). -/
theorem C06_trans {s : Seg} {V : Word → Prop} (hV : ValueSet s V) (a b c : Word) (ha : V a) (hb : V b) (hc : V c)
    (h1 : WG_COMPARE s a b ≤ 0) (h2 : WG_COMPARE s b c ≤ 0) :
    WG_COMPARE s a c ≤ 0 ∧ (WG_COMPARE s a b < 0 ∨ WG_COMPARE s b c < 0 → WG_COMPARE s a c < 0) :=
  cmp_trans hV.ordered a b c ha hb hc h1 h2

/-! ## C07 -/

theorem type_of {s : Seg} {V : Word → Prop} (hV : ValueSet s V) {a : Word} (ha : V a) :
    ∃ t, getEncodedType s.mem a = some t := by
  obtain ⟨d, hd, rfl⟩ := hV.valid a ha
  exact ⟨_, C03_type_correct s.mem d hd⟩

/-- C07: values that compare equal have the same type and the same decoded content. -/
theorem C07_equal_same_content {s : Seg} {V : Word → Prop} (hV : ValueSet s V) (a b : Word) (ha : V a) (hb : V b)
    (h : WG_COMPARE s a b = 0) : getEncodedType s.mem a = getEncodedType s.mem b ∧ SameContent s a b := by
  rw [WG_COMPARE_spec hV a b ha hb, ordInt_eq_zero] at h
  generalize 7 = d at h
  have main : ∀ d a b, V a → V b → specCmp s d a b = .eq →
      getEncodedType s.mem a = getEncodedType s.mem b ∧ SameContent s a b := by
    intro d
    induction d with
    | zero | succ d ihd =>
      all_goals
      intro a b hva hvb h
      rw [specCmp_eq, Ordering.then_eq_eq, Ordering.then_eq_eq] at h
      obtain ⟨h1, h2, h3⟩ := h
      obtain ⟨da, va, ea⟩ := hV.valid a hva
      obtain ⟨db, vb, eb⟩ := hV.valid b hvb
      have hta := C03_type_correct s.mem da va
      have htb := C03_type_correct s.mem db vb
      rw [← ea] at hta; rw [← eb] at htb
      have hca : typeCode s a = da.type.code := by simp [typeCode, Seg.reader, hta]
      have hcb : typeCode s b = db.type.code := by simp [typeCode, Seg.reader, htb]
      rw [Std.compare_eq_iff_eq, hca, hcb] at h1
      have hty := code_inj h1
      rw [← hty] at htb
      have hp : payload s a = payload s b := LawfulEqCmp.eq_of_compare (cmp := compare) h2
      refine ⟨hta.trans htb.symm, ?_⟩
      have viaWord : (da.type = .fixpoint ∨ da.type = .date ∨ da.type = .time ∨ da.type = .var) → SameContent s a b := by
        intro ht
        have := payload_word s da db va vb hty ht (by rw [← ea, ← eb]; exact hp)
        rw [ea, eb, this]; exact .refl _
      have nolong : ∀ (d : Datum) (t : WType), d.Valid s.mem → d.type = t →
          ¬ (t = .str ∨ t = .xmlliteral ∨ t = .uri ∨ t = .blob ∨ t = .anonconst) → ∀ off t', d ≠ .longstr off t' := by
        rintro d t hd rfl hn off t' rfl
        exact hn hd.2.1
      cases ht : da.type with
      | null =>
        have : ∀ d : Datum, d.Valid s.mem → d.type = .null → d = .null := by
          intro d hd h
          have := nolong d _ hd h (by simp)
          cases d <;> simp [Datum.type] at h
          · rfl
          · rename_i off t; exact absurd rfl (this off t)
        rw [ea, eb, this da va ht, this db vb (hty ▸ ht)]
        exact .refl _
      | int =>
        rw [ht] at hta htb
        simp only [payload, Seg.reader, hta, htb, List.cons.injEq, and_true] at hp
        have hd : ∀ (d : Datum), d.Valid s.mem → d.type = .int → ∃ v, decodeInt s.mem d.encode = some v := by
          intro d hd h
          have hn := nolong d _ hd h (by simp)
          cases d <;> simp [Datum.type] at h
          · rename_i v
            have h7 : encodeSmallint v &&& 7#64 = 3#64 := by
              unfold encodeSmallint; rw [shl_or_and _ _ _ 3 (by decide)]; decide
            exact ⟨_, by show decodeInt s.mem (encodeSmallint v) = _; unfold decodeInt isSmallint; rw [h7]; rfl⟩
          · rename_i off
            have h7 : (off ||| 1#64) &&& 7#64 = 1#64 := by rw [aligned_or_and _ _ _ hd (by decide)]; decide
            have h3 : (off ||| 1#64) &&& 3#64 = 1#64 := by rw [and_mask h7 (by decide)]; decide
            exact ⟨_, by show decodeInt s.mem (off ||| 1#64) = _; unfold decodeInt isSmallint isFullint; rw [h7, h3]; rfl⟩
          · rename_i off t; exact absurd rfl (hn off t)
        obtain ⟨v, hv⟩ := hd da va ht
        obtain ⟨w, hw⟩ := hd db vb (hty ▸ ht)
        rw [← ea] at hv; rw [← eb] at hw
        rw [hv, hw] at hp
        simp only [Option.getD_some] at hp
        have : v = w := BitVec.eq_of_toInt_eq hp
        exact .int a b v hta htb hv (this ▸ hw)
      | double =>
        rw [ht] at hta htb
        simp only [payload, Seg.reader, hta, htb, List.cons.injEq, and_true] at hp
        have hd : ∀ (d : Datum), d.Valid s.mem → d.type = .double → ∃ v, decodeDouble s.mem d.encode = some v := by
          intro d hd h
          have hn := nolong d _ hd h (by simp)
          cases d <;> simp [Datum.type] at h
          · rename_i off
            have h7 : (off ||| 2#64) &&& 7#64 = 2#64 := by rw [aligned_or_and _ _ _ hd (by decide)]; decide
            refine ⟨dbfetch s.mem (decodeFulldouble (off ||| 2#64)), ?_⟩
            show decodeDouble s.mem (off ||| 2#64) = _
            unfold decodeDouble isFulldouble
            rw [h7]; simp
          · rename_i off t; exact absurd rfl (hn off t)
        obtain ⟨v, hv⟩ := hd da va ht
        obtain ⟨w, hw⟩ := hd db vb (hty ▸ ht)
        rw [← ea] at hv; rw [← eb] at hw
        rw [hv, hw] at hp
        simp only [Option.getD_some] at hp
        refine .double a b v w hta htb hv hw ?_
        simp [dblEq, hV.noNaN a hva v hv, hV.noNaN b hvb w hw, hp]
      | fixpoint => exact viaWord (by simp [ht])
      | date => exact viaWord (by simp [ht])
      | time => exact viaWord (by simp [ht])
      | var => exact viaWord (by simp [ht])
      | anonconst =>
        rw [ht] at hta htb
        simp only [payload, Seg.reader, hta, htb, List.cons.injEq, and_true] at hp
        rw [BitVec.eq_of_toInt_eq hp]; exact .refl _
      | char =>
        rw [ht] at hta htb
        have hn1 := nolong da _ va ht (by simp)
        have hn2 := nolong db _ vb (hty ▸ ht) (by simp)
        simp only [payload, Seg.reader, hta, htb] at hp
        have hc : decodeChar a = decodeChar b := by
          by_cases h1 : decodeChar a = 0#8 <;> by_cases h2 : decodeChar b = 0#8 <;> simp [h1, h2] at hp ⊢
          exact BitVec.eq_of_toNat_eq hp
        rw [hty] at ht
        cases da <;> simp [Datum.type] at hty <;> cases db <;> simp [Datum.type] at hty ht
        all_goals first
          | (exfalso; exact hn1 _ _ rfl)
          | (exfalso; exact hn2 _ _ rfl)
          | (subst ea; subst eb
             simp only [Datum.encode, C02_char_roundtrip] at hc
             rw [hc]; exact .refl _)
      | str =>
        rw [ht] at hta htb
        simp only [payload, Seg.reader, hta, htb] at hp
        have hd : ∀ (d : Datum), d.Valid s.mem → d.type = .str → ∃ v, decodeUnistr s d.encode = some v := by
          intro d hd h
          cases d <;> simp [Datum.type] at h
          · rename_i off
            have h7 : (off ||| 6#64) &&& 7#64 = 6#64 := by rw [aligned_or_and _ _ _ hd (by decide)]; decide
            exact ⟨_, by show decodeUnistr s (off ||| 6#64) = _; unfold decodeUnistr isShortstr; rw [h7]; rfl⟩
          · rename_i off t
            have h7 : (off ||| 4#64) &&& 7#64 = 4#64 := by rw [aligned_or_and _ _ _ hd.1 (by decide)]; decide
            exact ⟨_, by show decodeUnistr s (off ||| 4#64) = _; unfold decodeUnistr isShortstr isLongstr; rw [h7]; rfl⟩
        obtain ⟨v, hv⟩ := hd da va ht
        obtain ⟨w, hw⟩ := hd db vb (hty ▸ ht)
        rw [← ea] at hv; rw [← eb] at hw
        rw [hv, hw] at hp
        have := byteInts_inj hp
        simp only [Option.getD_some] at this
        exact .str a b v hta htb hv (this ▸ hw)
      | xmlliteral | uri =>
        rw [ht] at hta htb
        simp only [payload, Seg.reader, hta, htb] at hp
        have hd : ∀ (d : Datum), d.Valid s.mem → (d.type = .uri ∨ d.type = .xmlliteral) → ∃ v, decodeUnistr s d.encode = some v := by
          intro d hd h
          cases d <;> simp [Datum.type] at h
          · rename_i off t
            have h7 : (off ||| 4#64) &&& 7#64 = 4#64 := by rw [aligned_or_and _ _ _ hd.1 (by decide)]; decide
            exact ⟨_, by show decodeUnistr s (off ||| 4#64) = _; unfold decodeUnistr isShortstr isLongstr; rw [h7]; rfl⟩
        obtain ⟨v, hv⟩ := hd da va (by simp [ht])
        obtain ⟨w, hw⟩ := hd db vb (by simp [← hty, ht])
        rw [← ea] at hv; rw [← eb] at hw
        have hcmp : compare (byteInts ((decodeUnistrLang s a).getD []) ++ 0 :: byteInts ((decodeUnistr s a).getD []))
          (byteInts ((decodeUnistrLang s b).getD []) ++ 0 :: byteInts ((decodeUnistr s b).getD [])) = .eq := by
          rw [hp]; exact ReflCmp.compare_self
        rw [compare_ext _ _ _ _ (decodeUnistrLang_no_zero _ _) (decodeUnistrLang_no_zero _ _), Ordering.then_eq_eq] at hcmp
        have e1 := byteInts_inj (LawfulEqCmp.eq_of_compare (cmp := compare) hcmp.1)
        have e2 := byteInts_inj (LawfulEqCmp.eq_of_compare (cmp := compare) hcmp.2)
        rw [hv, hw] at e2
        simp only [Option.getD_some] at e2
        exact .ext a b _ v (by simp) hta htb hv (e2 ▸ hw) e1
      | blob =>
        rw [ht] at hta htb
        simp only [payload, Seg.reader, hta, htb] at hp
        exact .blob a b hta htb (byteInts_inj hp)
      | record =>
        rw [ht] at hta htb
        have ra : isRec s a = true := by simp [isRec, Seg.reader, hta]
        have rb : isRec s b = true := by simp [isRec, Seg.reader, htb]
        simp only [restCmp, compareOn, compareLex, addrKey, lenKey, fieldsKey, ra, rb, if_true] at h3
        first
        | (rw [Std.compare_eq_iff_eq] at h3
           rw [BitVec.eq_of_toInt_eq h3]; exact .refl _)
        | (rw [Ordering.then_eq_eq] at h3
           refine .record a b hta htb ?_
           have hfa := hV.closed a hva ra
           have hfb := hV.closed b hvb rb
           have h4 := h3.2
           clear h3
           change List.compareLex (specCmp s d) (recFields s a) (recFields s b) = .eq at h4
           generalize recFields s a = l1 at *
           generalize recFields s b = l2 at *
           induction l1 generalizing l2 with
           | nil => cases l2 with
             | nil => exact .nil
             | cons y l2 => simp [List.compareLex_nil_cons] at h4
           | cons x l1 ih => cases l2 with
             | nil => simp [List.compareLex_cons_nil] at h4
             | cons y l2 =>
               rw [List.compareLex_cons_cons, Ordering.then_eq_eq] at h4
               exact .cons (ihd x y (hfa x (by simp)) (hfb y (by simp)) h4.1).2
                 (ih (fun z hz => hfa z (by simp [hz])) l2 (fun z hz => hfb z (by simp [hz])) h4.2))
  exact main d a b ha hb h

/-- Values of the same type that are not records are ordered by their payload. -/
theorem cmp_payload {s : Seg} {V : Word → Prop} (hV : ValueSet s V) (a b : Word) (ha : V a) (hb : V b) (t : WType)
    (hta : getEncodedType s.mem a = some t) (htb : getEncodedType s.mem b = some t) (hr : t ≠ .record) :
    WG_COMPARE s a b = ordInt (compare (payload s a) (payload s b)) := by
  rw [WG_COMPARE_spec hV a b ha hb, specCmp_eq]
  have e1 : compare (typeCode s a) (typeCode s b) = .eq := by
    have h1 : typeCode s a = t.code := by simp [typeCode, Seg.reader, hta]
    have h2 : typeCode s b = t.code := by simp [typeCode, Seg.reader, htb]
    rw [h1, h2]; exact ReflCmp.compare_self (α := Int) (cmp := compare)
  rw [e1, restCmp_other s 7 a b (by simp [isRec, Seg.reader, hta, hr]) (by simp [isRec, Seg.reader, htb, hr])]
  cases compare (payload s a) (payload s b) <;> rfl

/-- C07: values of different types are ordered by the type code. -/
theorem C07_types {s : Seg} {V : Word → Prop} (hV : ValueSet s V) (a b : Word) (ha : V a) (hb : V b) (t u : WType)
    (hta : getEncodedType s.mem a = some t) (htb : getEncodedType s.mem b = some u) (hne : t ≠ u) :
    WG_COMPARE s a b = if t.code > u.code then 1 else -1 := by
  rw [WG_COMPARE_spec hV a b ha hb, specCmp_eq]
  have h1 : typeCode s a = t.code := by simp [typeCode, Seg.reader, hta]
  have h2 : typeCode s b = u.code := by simp [typeCode, Seg.reader, htb]
  rw [h1, h2]
  have hc : t.code ≠ u.code := fun h => hne (code_inj h)
  rw [ordInt_then, ordInt_compare_int]
  by_cases h3 : t.code > u.code
  · simp [h3]
  · have h4 : t.code < u.code := by omega
    simp [h3, h4]

/-- C07: integers are ordered by their value, however they are stored. -/
theorem C07_int {s : Seg} {V : Word → Prop} (hV : ValueSet s V) (a b va vb : Word) (ha : V a) (hb : V b)
    (hta : getEncodedType s.mem a = some .int) (htb : getEncodedType s.mem b = some .int)
    (hda : decodeInt s.mem a = some va) (hdb : decodeInt s.mem b = some vb) :
    WG_COMPARE s a b = if va.toInt > vb.toInt then 1 else if va.toInt < vb.toInt then -1 else 0 := by
  rw [cmp_payload hV a b ha hb _ hta htb (by simp)]
  simp only [payload, Seg.reader, hta, htb, hda, hdb, Option.getD_some, ordInt_compare_single]

/-- C07: dates are ordered by day number. -/
theorem C07_date {s : Seg} {V : Word → Prop} (hV : ValueSet s V) (a b : Word) (va vb : BitVec 32) (ha : V a) (hb : V b)
    (hta : getEncodedType s.mem a = some .date) (htb : getEncodedType s.mem b = some .date)
    (hda : decodeDate a = some va) (hdb : decodeDate b = some vb) :
    WG_COMPARE s a b = if va.toInt > vb.toInt then 1 else if va.toInt < vb.toInt then -1 else 0 := by
  rw [cmp_payload hV a b ha hb _ hta htb (by simp)]
  simp only [payload, Seg.reader, hta, htb, hda, hdb, Option.getD_some, ordInt_compare_single]

/-- C07: times are ordered by hundredths of a second. -/
theorem C07_time {s : Seg} {V : Word → Prop} (hV : ValueSet s V) (a b : Word) (va vb : BitVec 32) (ha : V a) (hb : V b)
    (hta : getEncodedType s.mem a = some .time) (htb : getEncodedType s.mem b = some .time)
    (hda : decodeTime a = some va) (hdb : decodeTime b = some vb) :
    WG_COMPARE s a b = if va.toInt > vb.toInt then 1 else if va.toInt < vb.toInt then -1 else 0 := by
  rw [cmp_payload hV a b ha hb _ hta htb (by simp)]
  simp only [payload, Seg.reader, hta, htb, hda, hdb, Option.getD_some, ordInt_compare_single]

/-- C07: fixed point numbers are ordered by value (ten-thousandths). -/
theorem C07_fixpoint {s : Seg} {V : Word → Prop} (hV : ValueSet s V) (a b va vb : Word) (ha : V a) (hb : V b)
    (hta : getEncodedType s.mem a = some .fixpoint) (htb : getEncodedType s.mem b = some .fixpoint)
    (hda : decodeFixpoint a = some va) (hdb : decodeFixpoint b = some vb) :
    WG_COMPARE s a b = if va.toInt > vb.toInt then 1 else if va.toInt < vb.toInt then -1 else 0 := by
  rw [cmp_payload hV a b ha hb _ hta htb (by simp)]
  simp only [payload, Seg.reader, hta, htb, hda, hdb, Option.getD_some, ordInt_compare_single]

/-- C07: characters are ordered as unsigned bytes. -/
theorem C07_char {s : Seg} {V : Word → Prop} (hV : ValueSet s V) (a b : Word) (ha : V a) (hb : V b)
    (hta : getEncodedType s.mem a = some .char) (htb : getEncodedType s.mem b = some .char) :
    WG_COMPARE s a b = if (decodeChar a).toNat > (decodeChar b).toNat then 1
      else if (decodeChar a).toNat < (decodeChar b).toNat then -1 else 0 := by
  rw [cmp_payload hV a b ha hb _ hta htb (by simp)]
  simp only [payload, Seg.reader, hta, htb]
  generalize decodeChar a = x
  generalize decodeChar b = y
  have hz : ∀ c : BitVec 8, c ≠ 0#8 → 0 < c.toNat := by
    intro c hc
    rcases Nat.eq_zero_or_pos c.toNat with h | h
    · exact absurd (BitVec.eq_of_toNat_eq (by simpa using h)) hc
    · exact h
  by_cases hx : x = 0#8 <;> by_cases hy : y = 0#8
  · subst hx; subst hy; rfl
  · subst hx
    have := hz y hy
    simp only [if_pos, if_neg hy, BitVec.toNat_ofNat, Nat.zero_mod]
    rw [if_neg (by omega), if_pos this]; rfl
  · subst hy
    have := hz x hx
    simp only [if_pos, if_neg hx, BitVec.toNat_ofNat, Nat.zero_mod]
    rw [if_pos (by omega)]; rfl
  · rw [if_neg hx, if_neg hy, ordInt_compare_single]
    simp only [gt_iff_lt, Nat.cast_lt]

theorem ieeeMag_step (m : Nat) : ieeeMag m < ieeeMag (m + 1) := by
  unfold ieeeMag
  have hm := Nat.div_add_mod m (2^52)
  have hlt := Nat.mod_lt m (show 0 < 2^52 by decide)
  simp only
  by_cases h : m % 2^52 + 1 < 2^52
  · have e1 : (m + 1) / 2^52 = m / 2^52 := by omega
    have e2 : (m + 1) % 2^52 = m % 2^52 + 1 := by omega
    rw [e1, e2]
    split
    · omega
    · exact Nat.mul_lt_mul_of_pos_right (by omega) (Nat.two_pow_pos _)
  · have e1 : (m + 1) / 2^52 = m / 2^52 + 1 := by omega
    have e2 : (m + 1) % 2^52 = 0 := by omega
    have e3 : m % 2^52 = 2^52 - 1 := by omega
    rw [e1, e2, e3]
    generalize m / 2^52 = e
    rw [if_neg (show ¬ e + 1 = 0 by omega)]
    by_cases h0 : e = 0
    · rw [if_pos h0, h0]; decide
    · rw [if_neg h0]
      have : 2^(e + 1 - 1) = 2 * 2^(e - 1) := by
        rw [← Nat.pow_succ']; congr 1; omega
      rw [this, ← Nat.mul_assoc]
      exact Nat.mul_lt_mul_of_pos_right (by decide) (Nat.two_pow_pos _)

theorem ieeeMag_mono {m n : Nat} (h : m < n) : ieeeMag m < ieeeMag n := by
  induction n with
  | zero => omega
  | succ n ih =>
    rcases Nat.lt_or_ge m n with h1 | h1
    · exact Nat.lt_trans (ih h1) (ieeeMag_step n)
    · have : m = n := by omega
      rw [this]; exact ieeeMag_step n

theorem ieeeMag_zero : ieeeMag 0 = 0 := by decide

theorem dblKey_eq (d : Word) : dblKey d = if d.toNat ≥ 2^63 then -((d.toNat - 2^63 : Nat) : Int) else (d.toNat : Int) := by
  have hm : (d &&& 0x7fffffffffffffff#64).toNat = d.toNat % 2^63 := by
    have hc : (0x7fffffffffffffff#64 : Word).toNat = 2^63 - 1 := by decide
    rw [BitVec.toNat_and, hc]
    exact Nat.and_two_pow_sub_one_eq_mod _ 63
  unfold dblKey
  rw [hm, BitVec.msb_eq_decide]
  have := d.isLt
  by_cases h : d.toNat ≥ 2^63
  · have e : d.toNat % 2^63 = d.toNat - 2^63 := by omega
    rw [if_pos (by simpa using h), if_pos h, e]
  · have e : d.toNat % 2^63 = d.toNat := by omega
    rw [if_neg (by simpa using h), if_neg h, e]

theorem ieeeValue_gt (a b : Word) : ieeeValue a > ieeeValue b ↔ dblKey a > dblKey b := by
  rw [dblKey_eq, dblKey_eq]
  unfold ieeeValue
  have nn : ∀ m, 0 < m → 0 < ieeeMag m := fun m h => by have := ieeeMag_mono h; rw [ieeeMag_zero] at this; exact this
  have cmp : ∀ m n : Nat, ieeeMag m < ieeeMag n ↔ m < n := by
    intro m n
    refine ⟨fun h => ?_, ieeeMag_mono⟩
    rcases Nat.lt_trichotomy m n with h1 | h1 | h1
    · exact h1
    · subst h1; omega
    · have := ieeeMag_mono h1; omega
  have z : ∀ m : Nat, ieeeMag m = 0 ↔ m = 0 := by
    intro m
    rcases Nat.eq_zero_or_pos m with h | h
    · subst h; simp [ieeeMag_zero]
    · have := nn m h; omega
  by_cases ha : a.toNat ≥ 2^63 <;> by_cases hb : b.toNat ≥ 2^63
  · rw [if_pos ha, if_pos hb, if_pos ha, if_pos hb]
    have := cmp (a.toNat - 2^63) (b.toNat - 2^63)
    omega
  · rw [if_pos ha, if_neg hb, if_pos ha, if_neg hb]; omega
  · rw [if_neg ha, if_pos hb, if_neg ha, if_pos hb]
    have h1 := z a.toNat
    have h2 := z (b.toNat - 2^63)
    omega
  · rw [if_neg ha, if_neg hb, if_neg ha, if_neg hb]
    have := cmp b.toNat a.toNat
    omega

/-- C07: doubles other than NaN are ordered by the number they denote. -/
theorem C07_double {s : Seg} {V : Word → Prop} (hV : ValueSet s V) (a b x y : Word) (ha : V a) (hb : V b)
    (hta : getEncodedType s.mem a = some .double) (htb : getEncodedType s.mem b = some .double)
    (hda : decodeDouble s.mem a = some x) (hdb : decodeDouble s.mem b = some y) :
    WG_COMPARE s a b = if ieeeValue x > ieeeValue y then 1 else if ieeeValue x < ieeeValue y then -1 else 0 := by
  rw [cmp_payload hV a b ha hb _ hta htb (by simp)]
  simp only [payload, Seg.reader, hta, htb, hda, hdb, Option.getD_some, ordInt_compare_single]
  have h1 := ieeeValue_gt x y
  have h2 := ieeeValue_gt y x
  by_cases c1 : dblKey x > dblKey y
  · rw [if_pos c1, if_pos (h1.2 c1)]
  · rw [if_neg c1, if_neg (fun h => c1 (h1.1 h))]
    by_cases c2 : dblKey y > dblKey x
    · rw [if_pos c2, if_pos (h2.2 c2)]
    · rw [if_neg c2, if_neg (fun h => c2 (h2.1 h))]

theorem byteInts_lt (x y : List (BitVec 8)) : compare (byteInts x) (byteInts y) = .lt ↔ x.map BitVec.toNat < y.map BitVec.toNat := by
  induction x generalizing y with
  | nil => cases y <;> simp [byteInts]
  | cons a x ih =>
    cases y with
    | nil => simp [byteInts]
    | cons b y =>
      have : compare (byteInts (a :: x)) (byteInts (b :: y)) =
        (compare (a.toNat : Int) b.toNat).then (compare (byteInts x) (byteInts y)) := compare_cons _ _ _ _
      rw [this, Ordering.then_eq_lt, ih, compare_lt_iff_lt, Std.compare_eq_iff_eq]
      simp only [List.map_cons, List.cons_lt_cons_iff, Nat.cast_lt, Nat.cast_inj]

/-- C07: plain strings are ordered as byte strings (lexicographic, bytes unsigned), however they are stored. -/
theorem C07_str {s : Seg} {V : Word → Prop} (hV : ValueSet s V) (a b : Word) (x y : List (BitVec 8)) (ha : V a) (hb : V b)
    (hta : getEncodedType s.mem a = some .str) (htb : getEncodedType s.mem b = some .str)
    (hda : decodeUnistr s a = some x) (hdb : decodeUnistr s b = some y) :
    (WG_COMPARE s a b = -1 ↔ x.map BitVec.toNat < y.map BitVec.toNat) ∧ (WG_COMPARE s a b = 0 ↔ x = y) := by
  rw [cmp_payload hV a b ha hb _ hta htb (by simp)]
  simp only [payload, Seg.reader, hta, htb, hda, hdb, Option.getD_some]
  constructor
  · rw [← byteInts_lt]
    cases compare (byteInts x) (byteInts y) <;> simp [ordInt]
  · rw [ordInt_eq_zero]
    constructor
    · intro h; exact byteInts_inj (LawfulEqCmp.eq_of_compare (cmp := compare) h)
    · rintro rfl; exact ReflCmp.compare_self (α := List Int) (cmp := compare)

/-- C07: blobs are ordered as byte strings. -/
theorem C07_blob {s : Seg} {V : Word → Prop} (hV : ValueSet s V) (a b : Word) (ha : V a) (hb : V b)
    (hta : getEncodedType s.mem a = some .blob) (htb : getEncodedType s.mem b = some .blob) :
    (WG_COMPARE s a b = -1 ↔ (decodeBlob s a).map BitVec.toNat < (decodeBlob s b).map BitVec.toNat) ∧
    (WG_COMPARE s a b = 0 ↔ decodeBlob s a = decodeBlob s b) := by
  rw [cmp_payload hV a b ha hb _ hta htb (by simp)]
  simp only [payload, Seg.reader, hta, htb]
  constructor
  · rw [← byteInts_lt]
    cases compare (byteInts (decodeBlob s a)) (byteInts (decodeBlob s b)) <;> simp [ordInt]
  · rw [ordInt_eq_zero]
    constructor
    · intro h; exact byteInts_inj (LawfulEqCmp.eq_of_compare (cmp := compare) h)
    · intro h; rw [h]; exact ReflCmp.compare_self (α := List Int) (cmp := compare)

/-- C06 needs NaN excluded: two stored NaN values compare "less" in both directions. -/
theorem C06_nan_counterexample : ∃ (s : Seg) (a b : Word),
    (∃ d : Datum, d.Valid s.mem ∧ a = d.encode) ∧ (∃ d : Datum, d.Valid s.mem ∧ b = d.encode) ∧
    WG_COMPARE s a b = -1 ∧ WG_COMPARE s b a = -1 := by
  refine ⟨⟨fun _ => 0x7ff8000000000000#64, 65536⟩, 4098#64, 4106#64, ⟨.double 4096#64, ?_, ?_⟩, ⟨.double 4104#64, ?_, ?_⟩, ?_, ?_⟩
  · show (4096#64 : Word) &&& 7#64 = 0#64; decide
  · decide
  · show (4104#64 : Word) &&& 7#64 = 0#64; decide
  · decide
  · decide +kernel
  · decide +kernel

/-! Example: a segment with two records referring to each other (a cycle), fields integers; the value set is closed. -/
def exSeg : Seg := ⟨fun o => if o = 4096#64 then 32#64 else if o = 4096#64 + 24#64 then 8192#64
  else if o = 8192#64 then 32#64 else if o = 8192#64 + 24#64 then 4096#64 else 0#64, 65536⟩

theorem exSeg_valueSet : ValueSet exSeg (fun w => w = 4096#64 ∨ w = 8192#64 ∨ w = encodeSmallint 5#64 ∨ w = encodeSmallint 7#64) := by
  refine ⟨?_, ?_, ?_⟩
  · rintro w (rfl | rfl | rfl | rfl)
    · exact ⟨.record 4096#64, ⟨by show (4096#64 : Word) &&& 7#64 = 0#64; decide, by decide⟩, rfl⟩
    · exact ⟨.record 8192#64, ⟨by show (8192#64 : Word) &&& 7#64 = 0#64; decide, by decide⟩, rfl⟩
    · exact ⟨.int 5#64, by constructor <;> decide, rfl⟩
    · exact ⟨.int 7#64, by constructor <;> decide, rfl⟩
  · rintro w (rfl | rfl | rfl | rfl) x h <;> simp [decodeDouble, isFulldouble, encodeSmallint] at h
  · rintro w (rfl | rfl | rfl | rfl) hr
    · have : recFields exSeg 4096#64 = [8192#64] := by decide +kernel
      rw [this]; simp
    · have : recFields exSeg 8192#64 = [4096#64] := by decide +kernel
      rw [this]; simp
    · exact absurd hr (by decide +kernel)
    · exact absurd hr (by decide +kernel)

example : WG_COMPARE exSeg (encodeSmallint 7#64) (encodeSmallint 5#64) = 1 := by decide +kernel
example : WG_COMPARE exSeg 4096#64 (encodeSmallint 5#64) = -1 := by decide +kernel
/-- The two records of the cycle are told apart only by address, below depth 7. -/
example : WG_COMPARE exSeg 4096#64 8192#64 = 1 := by decide +kernel

end WG
