import Verif.Records.Ops2
/-! # Encoding and decoding of values -/
namespace WG.Recs

variable {C : Prop} {h h' : Heap} {ι : Type}

theorem Encoded.sok (hI : Inv C h) {w : Word} (e : Encoded C h h' (fldF h) w) (hk : isRecVal w = false) : Inv C h' ∧ SOK h' w := by
  have hF : fldF h' = fldF h := by funext p; cases p <;> simp only [fldF, e.grown.recs]
  refine ⟨hI.values e.grown.recs e.grown.cells e.inv, e.live, ?_, ?_⟩
  · intro hr; rw [hk] at hr; cases hr
  · rw [hF]; exact e.loose

theorem kind_imm_rec {w : Word} (hk : kind w = .imm) : isRecVal w = false := by
  rcases kind_cases w with k | k | k | k | k | k <;> simp_all

theorem kind_dbl {w : Word} (h : isFulldouble w = true) : kind w = .dbl := by
  have h3 := and3 w
  have h2 : w &&& 7#64 = 2#64 := by simpa [isFulldouble] using h
  have h0 : w ≠ 0#64 := by rintro rfl; exact absurd h2 (by decide)
  rw [h2] at h3
  simp [kind, isPtr, isDatarec, isLongstr, isShortstr, isFulldouble, isFullint, h2, h3, h0]

theorem kind_int {w : Word} (h : isFullint w = true) : kind w = .int := by
  have h3 := and3 w
  have hh : w &&& 3#64 = 1#64 := by simpa [isFullint] using h
  rw [hh] at h3
  have h0 : w ≠ 0#64 := by rintro rfl; exact absurd hh (by decide)
  rcases low3 w with g | g | g | g | g | g | g | g <;> rw [g] at h3 <;> (try exact absurd h3 (by decide)) <;>
    simp [kind, isPtr, isDatarec, isLongstr, isShortstr, isFulldouble, isFullint, g, hh, h0]

theorem kind_small (v : Word) : kind (encodeSmallint v) = .imm := by
  have : encodeSmallint v &&& 7#64 = 3#64 := by
    simp only [encodeSmallint]
    have e : (v <<< 3) &&& 7#64 = 0#64 := by
      apply BitVec.eq_of_toNat_eq
      rw [BitVec.toNat_and, BitVec.toNat_shiftLeft]
      have : (7#64 : Word).toNat = 2 ^ 3 - 1 := rfl
      rw [this, Nat.and_two_pow_sub_one_eq_mod, Nat.shiftLeft_eq]
      simp
    rw [BitVec.and_or_distrib_right, e]; rfl
  have h3 := and3 (encodeSmallint v)
  rw [this] at h3
  generalize encodeSmallint v = w at *
  have h0 : w ≠ 0#64 := by rintro rfl; exact absurd this (by decide)
  simp [kind, isPtr, isDatarec, isLongstr, isShortstr, isFulldouble, isFullint, this, h3, h0]

theorem encInt_ok (hI : Inv C h) (v : Word) {al : Option Word} (hal : ∀ o, al = some o → h.ints o = none ∧ Aligned o) :
    Inv C (encInt h v al).1 ∧ Grown h (encInt h v al).1 ∧ SOK (encInt h v al).1 (encInt h v al).2 := by
  unfold encInt
  split_ifs with hs
  · have e := Encoded.plain hI.str (kind_small v)
    exact ⟨hI, e.grown, (e.sok hI (kind_imm_rec (kind_small v))).2⟩
  cases al with
  | none =>
    have e := Encoded.plain hI.str kind_illegal
    exact ⟨hI, e.grown, (e.sok hI (kind_imm_rec kind_illegal)).2⟩
  | some o =>
    obtain ⟨a1, a2⟩ := hal o rfl
    obtain ⟨g1, g2⟩ := newInt hI.str (v := v) a1
    have hk := kind_int (int_is a2)
    have hd := int_dec_enc a2
    have e : Encoded C h { h with ints := upd h.ints o (some v) } (fldF h) (encodeFullintOffset o) := by
      refine ⟨g1, g2, ?_, ?_⟩
      · rw [LiveS, hk]; simp only; rw [hd]; exact ⟨v, upd_self _ _ _⟩
      · intro _ q hq
        have hq' : Held h (fldF h) q (encodeFullintOffset o) := by cases q <;> exact hq
        have := hI.str.live _ _ hq'
        rw [LiveS, hk] at this
        simp only at this
        rw [hd, a1] at this
        obtain ⟨_, e⟩ := this; cases e
    have hr : isRecVal (encodeFullintOffset o) = false := by
      rcases kind_cases (encodeFullintOffset o) with k | k | k | k | k | k <;> simp_all
    obtain ⟨z1, z2⟩ := e.sok hI hr
    exact ⟨z1, g2, z2⟩

theorem encDouble_ok (hI : Inv C h) (v : Word) {al : Option Word} (hal : ∀ o, al = some o → h.dbls o = none ∧ Aligned o) :
    Inv C (encDouble h v al).1 ∧ Grown h (encDouble h v al).1 ∧ SOK (encDouble h v al).1 (encDouble h v al).2 := by
  unfold encDouble
  cases al with
  | none =>
    have e := Encoded.plain hI.str kind_illegal
    exact ⟨hI, e.grown, (e.sok hI (kind_imm_rec kind_illegal)).2⟩
  | some o =>
    obtain ⟨a1, a2⟩ := hal o rfl
    obtain ⟨g1, g2⟩ := newDbl hI.str (v := v) a1
    have hk := kind_dbl (dbl_is a2)
    have hd := dbl_dec_enc a2
    have e : Encoded C h { h with dbls := upd h.dbls o (some v) } (fldF h) (encodeFulldouble o) := by
      refine ⟨g1, g2, ?_, ?_⟩
      · rw [LiveS, hk]; simp only; rw [hd]; exact ⟨v, upd_self _ _ _⟩
      · intro _ q hq
        have hq' : Held h (fldF h) q (encodeFulldouble o) := by cases q <;> exact hq
        have := hI.str.live _ _ hq'
        rw [LiveS, hk] at this
        simp only at this
        rw [hd, a1] at this
        obtain ⟨_, e⟩ := this; cases e
    have hr : isRecVal (encodeFulldouble o) = false := by
      rcases kind_cases (encodeFulldouble o) with k | k | k | k | k | k <;> simp_all
    obtain ⟨z1, z2⟩ := e.sok hI hr
    exact ⟨z1, g2, z2⟩

theorem sok_illegal : SOK h illegal := by
  refine ⟨by rw [LiveS, kind_illegal]; trivial, ?_, ?_⟩
  · intro hr; rw [kind_imm_rec kind_illegal] at hr; cases hr
  · rintro (k | k | k) <;> rw [kind_illegal] at k <;> cases k

theorem sok_long {w : Word} (hw : isLongstr w = true) {k : Key} (hk : keyOf h (decodeLongstr w) = some k) : SOK h w := by
  have hkd := isPtr_lstr hw
  refine ⟨?_, ?_, ?_⟩
  · rw [LiveS, hkd]
    simp only
    cases hs : h.lstrs (decodeLongstr w) with
    | none => simp [keyOf, hs] at hk
    | some s => exact ⟨s, rfl⟩
  · intro hr; rw [kind_rcd, hkd] at hr; cases hr
  · rintro (k | k | k) <;> rw [hkd] at k <;> cases k

/-- Common part of wg_encode_unistr and wg_encode_uniblob. -/
theorem encLong_ok (hI : Inv C h) {al : StrAlloc} (hal : AllocOK h al) (data : List Byte)
    {extra : Option (List Byte)} (h0 : ∀ x, extra = some x → 0#8 ∉ x) {type : Word} (ht : StrType type) (hC : C → ¬ Clash h data extra type) :
    ∃ h' w, (match findCreate (encExtra al) h data extra type al.long with
        | none => none
        | some (h1, w) => some (h1, if w = 0#64 then illegal else encodeLongstr w)) = some (h', w) ∧
      Inv C h' ∧ Grown h h' ∧ SOK h' w ∧
      ((w = illegal ∧ (al.long = none ∨ ∃ x, extra = some x ∧ (if x.length < 32 then al.exShort = none else al.exLong = none))) ∨
        (isLongstr w = true ∧ keyOf h' (decodeLongstr w) = some (data, extra, type))) ∧
      (C → ∀ o, keyOf h o = some (data, extra, type) → h' = h ∧ w = encodeLongstr o) := by
  obtain ⟨h1, w, g1, g2, g3, g4, g5⟩ := findCreate_ok hI.str (i := 0) (fldF_tmp 0) hal data h0 ht hC
  rw [g1]
  have hinv : Inv C h1 := hI.values g3.recs g3.cells g2
  rcases g4 with ⟨rfl, g4⟩ | ⟨g4, g6⟩
  · refine ⟨h1, illegal, by simp, hinv, g3, sok_illegal, Or.inl ⟨rfl, g4⟩, ?_⟩
    intro c o ho
    obtain ⟨e1, e2⟩ := g5 c o ho
    have ha : Aligned o := by
      cases hs : h.lstrs o with
      | none => simp [keyOf, hs] at ho
      | some s => exact hI.str.al o s hs
    exact absurd e2.symm (enc_ne_zero ha)
  · have hw0 : w ≠ 0#64 := by rintro rfl; exact absurd g4 (by decide)
    refine ⟨h1, w, by simp [hw0, enc_idem g4], hinv, g3, sok_long g4 g6, Or.inr ⟨g4, g6⟩, g5⟩

theorem encUniblob_ok (hI : Inv C h) {al : StrAlloc} (hal : AllocOK h al) (data : List Byte)
    {extra : Option (List Byte)} (h0 : ∀ x, extra = some x → 0#8 ∉ x) {type : Word} (ht : StrType type) (hC : C → ¬ Clash h data extra type) :
    ∃ h' w, encUniblob h data extra type al = some (h', w) ∧ Inv C h' ∧ Grown h h' ∧ SOK h' w ∧
      ((w = illegal ∧ (al.long = none ∨ ∃ x, extra = some x ∧ (if x.length < 32 then al.exShort = none else al.exLong = none))) ∨
        (isLongstr w = true ∧ keyOf h' (decodeLongstr w) = some (data, extra, type))) ∧
      (C → ∀ o, keyOf h o = some (data, extra, type) → h' = h ∧ w = encodeLongstr o) :=
  encLong_ok hI hal data h0 ht hC

/-- Stored as a short string. -/
def IsShort (str : List Byte) (lang : Option (List Byte)) (type : Word) : Prop := lang = none ∧ type = 5#64 ∧ str.length < 32

instance (str : List Byte) (lang : Option (List Byte)) (type : Word) : Decidable (IsShort str lang type) := by unfold IsShort; infer_instance

theorem encUnistr_ok (hI : Inv C h) {al : StrAlloc} (hal : AllocOK h al) {str : List Byte} (hz : 0#8 ∉ str)
    {lang : Option (List Byte)} (h0 : ∀ x, lang = some x → 0#8 ∉ x) {type : Word} (ht : StrType type)
    (hC : C → ¬ Clash h (str ++ [0#8]) lang type) :
    ∃ h' w, encUnistr h str lang type al = some (h', w) ∧ Inv C h' ∧ Grown h h' ∧ SOK h' w ∧
      ((w = illegal ∧ ((IsShort str lang type ∧ al.short = none) ∨ (¬ IsShort str lang type ∧
          (al.long = none ∨ ∃ x, lang = some x ∧ (if x.length < 32 then al.exShort = none else al.exLong = none))))) ∨
        (IsShort str lang type ∧ isShortstr w = true ∧
          h'.sstrs (decodeShortstr w) = some (str ++ List.replicate (32 - str.length) 0#8)) ∨
        (¬ IsShort str lang type ∧ isLongstr w = true ∧ keyOf h' (decodeLongstr w) = some (str ++ [0#8], lang, type))) ∧
      (C → ¬ IsShort str lang type → ∀ o, keyOf h o = some (str ++ [0#8], lang, type) → h' = h ∧ w = encodeLongstr o) := by
  unfold encUnistr
  by_cases hs : IsShort str lang type
  · have hs' : lang = none ∧ type = 5#64 ∧ str.length < 32 := hs
    rw [if_pos hs']
    obtain ⟨e1, e2, e3, e4⟩ := encShort_ok hI.str hz hs'.2.2 hal.short
    have hr : isRecVal (encShort h str al.short).2 = false := by
      rcases e4 with ⟨_, e⟩ | ⟨e, _⟩
      · rw [e]; exact kind_imm_rec kind_illegal
      · have := kind_sstr e
        rcases kind_cases (encShort h str al.short).2 with k | k | k | k | k | k <;> simp_all
    obtain ⟨z1, z2⟩ := e1.sok hI hr
    refine ⟨_, _, rfl, z1, e1.grown, z2, ?_, fun _ hn => absurd hs hn⟩
    cases hal' : al.short with
    | none => left; exact ⟨rfl, Or.inl ⟨hs, rfl⟩⟩
    | some o =>
      right; left
      obtain ⟨_, a2⟩ := hal.short o hal'
      refine ⟨hs, sstr_is a2, ?_⟩
      show upd h.sstrs o _ (decodeShortstr (encodeShortstr o)) = _
      rw [sstr_dec_enc a2, upd_self]
  · have hs' : ¬ (lang = none ∧ type = 5#64 ∧ str.length < 32) := hs
    rw [if_neg hs']
    obtain ⟨h', w, g1, g2, g3, g4, g5, g6⟩ := encLong_ok hI hal (str ++ [0#8]) h0 ht hC
    refine ⟨h', w, g1, g2, g3, g4, ?_, fun c _ => g6 c⟩
    rcases g5 with ⟨e1, e2⟩ | ⟨e1, e2⟩
    · exact Or.inl ⟨e1, Or.inr ⟨hs, e2⟩⟩
    · exact Or.inr (Or.inr ⟨hs, e1, e2⟩)

/-! ## Decoding -/

theorem not_short {w : Word} (hw : isLongstr w = true) : isShortstr w = false := by
  rcases kind_cases w with k | k | k | k | k | k <;> simp_all
theorem not_long {w : Word} (hw : isShortstr w = true) : isLongstr w = false := by
  rcases kind_cases w with k | k | k | k | k | k <;> simp_all

theorem copyShort_ok (buflen : Nat) (r : List Byte) : ∀ (x : List Byte) (n i : Nat) (out : List Byte), 0#8 ∉ x → x.length < n →
    i + x.length ≤ 32 → 1 ≤ i →
    copyShort buflen n (x ++ 0#8 :: r) i out =
      if i + x.length ≤ buflen ∨ x = [] then (out ++ x ++ [0#8], ((i + x.length - 1 : Nat) : Int)) else (out ++ x.take (buflen - i), -1) := by
  intro x
  induction x with
  | nil =>
    intro n i out _ hn _ hi
    obtain ⟨n, rfl⟩ : ∃ m, n = m + 1 := ⟨n - 1, by simp at hn; omega⟩
    simp [copyShort]
    omega
  | cons b x ih =>
    intro n i out h0 hn hi h1
    obtain ⟨n, rfl⟩ : ∃ m, n = m + 1 := ⟨n - 1, by simp at hn; omega⟩
    simp only [List.mem_cons, not_or] at h0
    simp only [List.length_cons] at hn hi ⊢
    rw [List.cons_append, copyShort, if_pos ⟨by omega, Ne.symm h0.1⟩]
    by_cases hb : i ≥ buflen
    · rw [if_pos hb, if_neg (by simp; omega)]
      have : buflen - i = 0 := by omega
      simp [this]
    · rw [if_neg hb, ih n (i + 1) (out ++ [b]) h0.2 (by omega) (by omega) (by omega)]
      have hx : (i + (x.length + 1) ≤ buflen ∨ b :: x = []) ↔ (i + 1 + x.length ≤ buflen ∨ x = []) := by
        simp only [reduceCtorEq, or_false]
        constructor
        · intro h; left; omega
        · rintro (h | h)
          · omega
          · subst h; simp only [List.length_nil]; omega
      by_cases hc : i + 1 + x.length ≤ buflen ∨ x = []
      · rw [if_pos hc, if_pos (hx.2 hc)]
        congr 1
        · simp
        · congr 1; omega
      · rw [if_neg hc, if_neg (fun e => hc (hx.1 e))]
        have : buflen - i = (buflen - (i + 1)) + 1 := by omega
        rw [this]; simp

theorem decode_short {w : Word} (hw : isShortstr w = true) {x : List Byte} (h0 : 0#8 ∉ x) (hl : x.length < 32)
    (hs : h.sstrs (decodeShortstr w) = some (x ++ List.replicate (32 - x.length) 0#8)) (buflen : Nat) (hb : 1 ≤ buflen) :
    decodeStr h w = some x ∧ decodeLen h w = some (x.length : Int) ∧ decodeLang h w 5#64 = some none ∧
      decodeCopy h w buflen 5#64 = some (if x.length < buflen then (x ++ [0#8], (x.length : Int)) else (x.take (buflen - 1), -1)) := by
  have hd : decodeStr h w = some x := by
    have := cstr_pad x h0 (32 - x.length) (by omega) []
    simpa [decodeStr, decodeBytes, hw, hs] using this
  refine ⟨hd, by simp [decodeLen, hw, hd], by simp [decodeLang, hw], ?_⟩
  simp only [decodeCopy, hw, true_and, if_true, hs, Option.map_some]
  have e : List.replicate (32 - x.length) (0#8 : Byte) = 0#8 :: List.replicate (31 - x.length) 0#8 := by
    have : 32 - x.length = (31 - x.length) + 1 := by omega
    rw [this, List.replicate_succ]
  rw [e, copyShort_ok buflen _ x 32 1 [] h0 hl (by omega) (by omega)]
  by_cases hc : x.length < buflen
  · rw [if_pos hc, if_pos (by left; omega)]
    simp
  · rw [if_neg hc, if_neg (by rintro (e | e); · omega
                              · subst e; simp at hc; omega)]
    simp

theorem decode_long {F : Pos → Option Word} (hI : SInv C h F) {w : Word} (hw : isLongstr w = true) {x : List Byte} (h0 : 0#8 ∉ x)
    {ex : Option (List Byte)} {t : Word} (hk : keyOf h (decodeLongstr w) = some (x ++ [0#8], ex, t)) (hb : t ≠ 8#64) (buflen : Nat) :
    decodeStr h w = some x ∧ decodeLen h w = some (x.length : Int) ∧ decodeLang h w t = some ex ∧
      decodeCopy h w buflen t = some (if x.length < buflen then (x ++ [0#8], (x.length : Int)) else ([], -1)) := by
  obtain ⟨s, pad, e1, e2, e3, e4, e5, e6⟩ := bytes_of_key hI hw hk
  have hns := not_short hw
  simp only [List.length_append, List.length_singleton] at e3
  refine ⟨decodeStr_of_key hI hw h0 hk, ?_, ?_, ?_⟩
  · simp only [decodeLen, hns, hw, if_true, Bool.false_eq_true, if_false, e1, Option.map_some, e3]; congr 1; omega
  · simp [decodeLang, hns, hw, e1, e5]
  · simp only [decodeCopy, hns, hw, and_false, Bool.false_eq_true, if_true, if_false, e1, Option.map_some, e3, hb, e2]
    by_cases hc : x.length < buflen
    · rw [if_pos hc, if_neg (by omega)]
      have : List.take (x.length + 1) (x ++ [0#8] ++ pad) = x ++ [0#8] := by
        rw [List.take_append_of_le_length (by simp)]; simp
      rw [this]; simp
    · rw [if_neg hc, if_pos (by omega)]

/-- Blobs: wg_decode_blob_len returns wg_decode_unistr_len + 1. -/
theorem decode_blob {F : Pos → Option Word} (hI : SInv C h F) {w : Word} (hw : isLongstr w = true) {x : List Byte}
    {ex : Option (List Byte)} (hk : keyOf h (decodeLongstr w) = some (x, ex, 8#64)) (buflen : Nat) :
    (∃ bs, decodeBytes h w = some bs ∧ bs.take x.length = x) ∧ (decodeLen h w).map (· + 1) = some (x.length : Int) ∧
      decodeLang h w 8#64 = some ex ∧
      decodeCopy h w buflen 8#64 = some (if x.length ≤ buflen then (x, (x.length : Int)) else ([], -1)) := by
  obtain ⟨s, pad, e1, e2, e3, e4, e5, e6⟩ := bytes_of_key hI hw hk
  have hns := not_short hw
  refine ⟨⟨s.data, by simp [decodeBytes, hns, hw, e1], by rw [e2]; simp⟩, ?_, ?_, ?_⟩
  · simp only [decodeLen, hns, hw, if_true, Bool.false_eq_true, if_false, e1, Option.map_some, e3]; congr 1; omega
  · simp [decodeLang, hw, e1, e5]
  · simp only [decodeCopy, hns, hw, and_false, Bool.false_eq_true, if_true, if_false, e1, Option.map_some, e3, e2]
    by_cases hc : x.length ≤ buflen
    · rw [if_pos hc, if_neg (by omega)]
      simp
    · rw [if_neg hc, if_pos (by omega)]

/-! ## Contents that do not change -/

theorem Sub.bytes (r : Sub h h') {w : Word} (hl : LiveS h' w) : decodeBytes h' w = decodeBytes h w := by
  refine decodeBytes_congr (fun hs => ?_) (fun hs => ?_)
  · rw [LiveS, kind_sstr hs] at hl
    obtain ⟨b, e⟩ := hl
    rw [e, r.sstrs _ _ e]
  · rw [LiveS, isPtr_lstr hs] at hl
    obtain ⟨b, e⟩ := hl
    obtain ⟨s, e1, e2, e3, e4⟩ := r.lstrs _ _ e
    rw [e, e1]; simp [e4]

/-- Everything the API can read from an encoded value. -/
def SameValue (h h' : Heap) (w : Word) : Prop :=
  decodeStr h' w = decodeStr h w ∧ decodeBytes h' w = decodeBytes h w ∧ decodeLen h' w = decodeLen h w ∧ (∀ t, decodeLang h' w t = decodeLang h w t) ∧
    (∀ n t, decodeCopy h' w n t = decodeCopy h w n t) ∧
    (isFulldouble w = true → h'.dbls (decodeFulldouble w) = h.dbls (decodeFulldouble w)) ∧
    (isFullint w = true → h'.ints (decodeFullintOffset w) = h.ints (decodeFullintOffset w)) ∧
    (isLongstr w = true → (h'.lstrs (decodeLongstr w)).map (·.type) = (h.lstrs (decodeLongstr w)).map (·.type))

theorem SameValue.symm {w : Word} (a : SameValue h h' w) : SameValue h' h w :=
  ⟨a.1.symm, a.2.1.symm, a.2.2.1.symm, fun t => (a.2.2.2.1 t).symm, fun n t => (a.2.2.2.2.1 n t).symm, fun e => (a.2.2.2.2.2.1 e).symm,
    fun e => (a.2.2.2.2.2.2.1 e).symm, fun e => (a.2.2.2.2.2.2.2 e).symm⟩

theorem SameValue.refl (h : Heap) (w : Word) : SameValue h h w := ⟨rfl, rfl, rfl, fun _ => rfl, fun _ _ => rfl, fun _ => rfl, fun _ => rfl, fun _ => rfl⟩

theorem SameValue.trans {h1 h2 h3 : Heap} {w : Word} (a : SameValue h1 h2 w) (b : SameValue h2 h3 w) : SameValue h1 h3 w :=
  ⟨b.1.trans a.1, b.2.1.trans a.2.1, b.2.2.1.trans a.2.2.1, fun t => (b.2.2.2.1 t).trans (a.2.2.2.1 t),
    fun n t => (b.2.2.2.2.1 n t).trans (a.2.2.2.2.1 n t), fun e => (b.2.2.2.2.2.1 e).trans (a.2.2.2.2.2.1 e),
    fun e => (b.2.2.2.2.2.2.1 e).trans (a.2.2.2.2.2.2.1 e), fun e => (b.2.2.2.2.2.2.2 e).trans (a.2.2.2.2.2.2.2 e)⟩

theorem Sub.value (r : Sub h h') {F : Pos → Option Word} (hI : SInv C h' F) {w : Word} (hl : LiveS h' w) : SameValue h h' w := by
  have hb := r.bytes hl
  have hd : decodeStr h' w = decodeStr h w := by simp only [decodeStr, hb]
  have hlong : isLongstr w = true → ∃ s s', h.lstrs (decodeLongstr w) = some s ∧ h'.lstrs (decodeLongstr w) = some s' ∧
      s'.info = s.info ∧ s'.extra = s.extra ∧ s'.data = s.data ∧ extraOf h' s' = extraOf h s := by
    intro hw
    rw [LiveS, isPtr_lstr hw] at hl
    obtain ⟨s', e⟩ := hl
    obtain ⟨s, e1, e2, e3, e4⟩ := r.lstrs _ _ e
    refine ⟨s, s', e1, e, e2, e3, e4, ?_⟩
    simp only [extraOf, e3]
    have hl2 := hI.live (.ext (decodeLongstr w)) s.extra ⟨s', e, e3⟩
    have := r.bytes hl2
    simp only [decodeStr, this]
  refine ⟨hd, hb, ?_, ?_, ?_, ?_, ?_, ?_⟩
  · unfold decodeLen
    split_ifs with h1 h2
    · rw [hd]
    · obtain ⟨s, s', e1, e2, e3, e4, e5, e6⟩ := hlong h2
      rw [e1, e2]; simp [LStr.len, LStr.size, e3, e5]
    · rfl
  · intro t
    unfold decodeLang
    split_ifs with h1 h2
    · rfl
    · obtain ⟨s, s', e1, e2, e3, e4, e5, e6⟩ := hlong h2
      rw [e1, e2]; exact e6
    · rfl
  · intro n t
    unfold decodeCopy
    by_cases h1 : t = 5#64 ∧ isShortstr w = true
    · rw [if_pos h1, if_pos h1]
      rw [LiveS, kind_sstr h1.2] at hl
      obtain ⟨b, e⟩ := hl
      rw [e, r.sstrs _ _ e]
    · rw [if_neg h1, if_neg h1]
      by_cases h2 : isLongstr w = true
      · rw [if_pos h2, if_pos h2]
        obtain ⟨s, s', e1, e2, e3, e4, e5, e6⟩ := hlong h2
        rw [e1, e2]; simp [LStr.len, LStr.size, e3, e5]
      · rw [if_neg h2, if_neg h2]
  · intro hw
    rw [LiveS, kind_dbl hw] at hl
    obtain ⟨b, e⟩ := hl
    rw [e, r.dbls _ _ e]
  · intro hw
    rw [LiveS, kind_int hw] at hl
    obtain ⟨b, e⟩ := hl
    rw [e, r.ints _ _ e]
  · intro hw
    obtain ⟨s, s', e1, e2, e3, e4, e5, e6⟩ := hlong hw
    rw [e1, e2]; simp [LStr.type, e3]

end WG.Recs
