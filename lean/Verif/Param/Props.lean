import Verif.Param.Long
/-!
# C52: parameters of queries

`m` is the memory of the process before the call, `malloc` what malloc returns for each size (`none` is NULL), `A` the places in use. `r` is the memory after the call and the
value returned.
-/
namespace WG.Param

/-- C52: an integer. Either it is stored in the word itself and nothing is written, or a block was allocated for it, or malloc failed and nothing was changed; the value decodes to
the integer. -/
theorem C52_int {A : Word → Prop} {malloc : Nat → Option Word} (hA : Allocates A malloc) (m : Mem) (v : Word) :
    ((-(2:Int) ^ 60 ≤ v.toInt ∧ v.toInt < 2 ^ 60) ∧ (paramInt malloc m v).1 = m ∧ (∃ d : Datum, d.Valid m ∧ (paramInt malloc m v).2 = d.encode) ∧
      getEncodedType m (paramInt malloc m v).2 = some .int ∧ decodeInt m (paramInt malloc m v).2 = some v ∧ freeParam (paramInt malloc m v).2 = none) ∨
    ∃ n, (malloc n = none ∧ paramInt malloc m v = (m, illegal)) ∨
      ∃ o, malloc n = some o ∧ Encoded m (paramInt malloc m v).1 (paramInt malloc m v).2 o n .int ∧ decodeInt (paramInt malloc m v).1 (paramInt malloc m v).2 = some v := by
  by_cases hf : fitsSmallint v = true
  · refine .inl ?_
    have hr : -(2:Int) ^ 60 ≤ v.toInt ∧ v.toInt < 2 ^ 60 := (shl_sshr_toInt3 v).1 (by simpa [fitsSmallint] using hf)
    have h7 : encodeSmallint v &&& 7#64 = 3#64 := by unfold encodeSmallint; rw [shl_or_and _ _ _ 3 (by decide)]; decide
    have h3 := tag3 h7
    have e : paramInt malloc m v = (m, encodeSmallint v) := by unfold paramInt; rw [if_pos hf]
    rw [e]
    refine ⟨hr, rfl, ⟨.int v, hr, rfl⟩, C03_type_correct m (.int v) hr, ?_, ?_⟩
    · have : decodeSmallint (encodeSmallint v) = v := by
        unfold decodeSmallint encodeSmallint
        rw [shl_or_sshr _ _ 3 (by decide) (by decide)]
        simpa [fitsSmallint] using hf
      simp [decodeInt, isSmallint, h7, this]
    · simp [freeParam, isPtr, h3]
  · refine .inr ⟨8, ?_⟩
    unfold paramInt
    rw [if_neg hf]
    cases hm : malloc 8 with
    | none => exact .inl ⟨rfl, rfl⟩
    | some o => exact .inr ⟨o, rfl, encoded_int (hA 8 o hm).1 (hA 8 o hm).2.1⟩

/-- C52: a double (any bit pattern). -/
theorem C52_double {A : Word → Prop} {malloc : Nat → Option Word} (hA : Allocates A malloc) (m : Mem) (v : Word) :
    ∃ n, (malloc n = none ∧ paramDouble malloc m v = (m, illegal)) ∨
      ∃ o, malloc n = some o ∧ Encoded m (paramDouble malloc m v).1 (paramDouble malloc m v).2 o n .double ∧
        decodeDouble (paramDouble malloc m v).1 (paramDouble malloc m v).2 = some v := by
  refine ⟨16, ?_⟩
  unfold paramDouble
  cases hm : malloc 16 with
  | none => exact .inl ⟨rfl, rfl⟩
  | some o => exact .inr ⟨o, rfl, encoded_double (hA 16 o hm).1 (hA 16 o hm).2.1⟩

/-- What is claimed of a parameter made from a C string `data` and an optional C string `ext`. -/
def StringParam (malloc : Nat → Option Word) (m : Mem) (data : Str) (ext : Option Str) (t : WType) (r : Mem × Word) : Prop :=
  ∃ n, (malloc n = none ∧ r = (m, illegal)) ∨
    ∃ o, malloc n = some o ∧ Encoded m r.1 r.2 o n t ∧ decodeUnistr (proc r.1) r.2 = some data ∧ decodeUnistrLang (proc r.1) r.2 = ext

/-- C52: a string with optional language. -/
theorem C52_str {A : Word → Prop} {malloc : Nat → Option Word} (hA : Allocates A malloc) (m : Mem) {data : Str} {lang : Option Str} (h0 : 0#8 ∉ data)
    (he : ∀ e, lang = some e → 0#8 ∉ e) : StringParam malloc m data lang .str (paramStr malloc m data lang) := by
  cases lang with
  | some e => exact paramUnistr_long (by simp) (.inl ⟨rfl, rfl⟩) h0 he fun n o h => ⟨(hA n o h).1, (hA n o h).2.1⟩
  | none =>
    refine ⟨data.length + 1, ?_⟩
    unfold paramStr paramUnistr
    rw [if_pos ⟨rfl, rfl⟩]
    cases hm : malloc (data.length + 1) with
    | none => exact .inl ⟨rfl, rfl⟩
    | some o => exact .inr ⟨o, rfl, encoded_short h0 (hA _ o hm).1 (hA _ o hm).2.1⟩

/-- C52: an XML literal with optional type. -/
theorem C52_xmlliteral {A : Word → Prop} {malloc : Nat → Option Word} (hA : Allocates A malloc) (m : Mem) {data : Str} {xsdtype : Option Str} (h0 : 0#8 ∉ data)
    (he : ∀ e, xsdtype = some e → 0#8 ∉ e) : StringParam malloc m data xsdtype .xmlliteral (paramXmlliteral malloc m data xsdtype) :=
  paramUnistr_long (by simp) (.inr (.inl ⟨rfl, rfl⟩)) h0 he fun n o h => ⟨(hA n o h).1, (hA n o h).2.1⟩

/-- C52: a URI with optional prefix. -/
theorem C52_uri {A : Word → Prop} {malloc : Nat → Option Word} (hA : Allocates A malloc) (m : Mem) {data : Str} {prefix_ : Option Str} (h0 : 0#8 ∉ data)
    (he : ∀ e, prefix_ = some e → 0#8 ∉ e) : StringParam malloc m data prefix_ .uri (paramUri malloc m data prefix_) :=
  paramUnistr_long (by simp) (.inr (.inr ⟨rfl, rfl⟩)) h0 he fun n o h => ⟨(hA n o h).1, (hA n o h).2.1⟩

/-! ## Comparing with stored values -/

theorem typeOfCode_code {b : Word} {t : WType} (h : typeOfCode b = some t) : (b.toNat : Int) = t.code := by
  unfold typeOfCode at h
  split_ifs at h with a a a a a <;> cases h <;> subst a <;> decide

theorem code_type {b : Word} {t : WType} (h : (b.toNat : Int) = t.code) (ht : t = .str ∨ t = .xmlliteral ∨ t = .uri ∨ t = .blob ∨ t = .anonconst) : typeOfCode b = some t := by
  have : ∀ k : Nat, k < 2 ^ 64 → b.toNat = k → b = BitVec.ofNat 64 k := fun k hk e => BitVec.eq_of_toNat_eq (by rw [e, BitVec.toNat_ofNat, Nat.mod_eq_of_lt hk])
  rcases ht with rfl | rfl | rfl | rfl | rfl <;> simp only [WType.code] at h
  · rw [this 5 (by omega) (by omega)]; decide
  · rw [this 6 (by omega) (by omega)]; decide
  · rw [this 7 (by omega) (by omega)]; decide
  · rw [this 8 (by omega) (by omega)]; decide
  · rw [this 13 (by omega) (by omega)]; decide

theorem Datum.Valid.same {m m' : Mem} {d : Datum} (h : d.Valid m) (hs : getEncodedType m' d.encode = getEncodedType m d.encode) : d.Valid m' := by
  have ht := C03_type_correct m d h
  rw [ht] at hs
  cases d with
  | longstr o t =>
    obtain ⟨a, b, c⟩ := h
    refine ⟨a, b, ?_⟩
    have h7 := tag_long a
    have h3 := tag3 h7
    have hn := tag_ne h7 (by decide)
    simp only [Datum.encode, Datum.type] at hs
    unfold getEncodedType at hs
    rw [h3, h7] at hs
    simp [hn, dbfetch, dec_long a] at hs
    exact typeOfCode_code hs
  | _ => exact h

/-- Stored values are a set of values in every memory in which they read the same. -/
theorem ValueSet.same {m m' : Mem} {V : Word → Prop} (hV : ValueSet (proc m) V) (h : ∀ w, V w → SameRead m m' w) : ValueSet (proc m') V := by
  refine ⟨fun w hw => ?_, fun w hw x hx => ?_, fun w hw hr f hf => ?_⟩
  · obtain ⟨d, hd, rfl⟩ := hV.valid w hw
    exact ⟨d, Datum.Valid.same hd (h _ hw).typ, rfl⟩
  · rw [(h w hw).dbl] at hx; exact hV.noNaN w hw x hx
  · have ht : getEncodedType m w = some .record := by
      simp only [isRec, Seg.reader, beq_iff_eq] at hr
      rw [(h w hw).typ] at hr; exact hr
    rw [((h w hw).rcd ht).2] at hf
    exact hV.closed w hw (by simp [isRec, Seg.reader, ht]) f hf

/-- C52: making a parameter changes no place in use, and no value that was readable. -/
theorem C52_keeps {A : Word → Prop} {malloc : Nat → Option Word} (hA : Allocates A malloc) {m m' : Mem} {w o : Word} {n : Nat} {t : WType} (hm : malloc n = some o)
    (he : Encoded m m' w o n t) : Agree A m m' ∧ (∀ v, Within A m v → SameRead m m' v ∧ Within A m' v) := by
  have hag : Agree A m m' := he.writes.mono fun a ha hb => (hA n o hm).2.2 a hb ha
  refine ⟨hag, fun v hv => ⟨hv m' hag, fun m2 h2 => ?_⟩⟩
  have a := hv m' hag
  have b := hv m2 (hag.trans h2)
  refine ⟨b.typ.trans a.typ.symm, b.int.trans a.int.symm, b.dbl.trans a.dbl.symm, b.str.trans a.str.symm, b.ext.trans a.ext.symm, fun e => ?_, fun e => ?_⟩
  · rw [a.typ] at e; exact ⟨(b.blob e).1.trans (a.blob e).1.symm, (b.blob e).2.trans (a.blob e).2.symm⟩
  · rw [a.typ] at e; exact ⟨(b.rcd e).1.trans (a.rcd e).1.symm, (b.rcd e).2.trans (a.rcd e).2.symm⟩

/-- The parameter `w` and the stored values together are a set of values, so that the theorems about comparison (C06, C07) apply to them. -/
theorem C52_valueSet {A : Word → Prop} {m m' : Mem} {w : Word} {t : WType} (hag : Agree A m m') (htw : getEncodedType m' w = some t) (hw : ∃ d : Datum, d.Valid m' ∧ w = d.encode)
    (ht : t ≠ .record) (hn : ∀ x, decodeDouble m' w = some x → isNaN x = false) {V : Word → Prop} (hV : ValueSet (proc m) V)
    (hin : ∀ v, V v → Within A m v) : ValueSet (proc m') (fun v => V v ∨ v = w) ∧ ∀ v, V v → SameRead m m' v := by
  have hsame : ∀ v, V v → SameRead m m' v := fun v hv => hin v hv m' hag
  have hV' := ValueSet.same hV hsame
  refine ⟨⟨?_, ?_, ?_⟩, hsame⟩
  · rintro v (hv | rfl)
    · exact hV'.valid v hv
    · exact hw
  · rintro v (hv | rfl) x hx
    · exact hV'.noNaN v hv x hx
    · exact hn x hx
  · rintro v (hv | rfl) hr f hf
    · exact .inl (hV'.closed v hv hr f hf)
    · simp only [isRec, Seg.reader, beq_iff_eq, htw] at hr
      exact absurd (Option.some.inj hr) ht

/-- Same content of a value `w` in memory `m'` and a value `w0` in memory `m`, by the decoding functions. -/
def SameData (m m' : Mem) (t : WType) (w0 w : Word) : Prop :=
  match t with
  | .int => decodeInt m' w = decodeInt m w0
  | .double => decodeDouble m' w = decodeDouble m w0
  | .str => decodeUnistr (proc m') w = decodeUnistr (proc m) w0
  | .xmlliteral | .uri => decodeUnistr (proc m') w = decodeUnistr (proc m) w0 ∧ decodeUnistrLang (proc m') w = decodeUnistrLang (proc m) w0
  | _ => False

theorem payload_same {m m' : Mem} {v : Word} (h : SameRead m m' v) : payload (proc m').reader v = payload (proc m).reader v := by
  unfold payload
  have ht : (proc m').reader.typ v = (proc m).reader.typ v := h.typ
  rw [ht]
  cases htv : (proc m).reader.typ v with
  | none => rfl
  | some t =>
    cases t <;> simp only [Seg.reader, h.int, h.dbl, h.str, h.ext]
    exact congrArg byteInts (h.blob htv).2

/-- C52: a parameter compares with every stored value exactly as a stored value of the same type and content. -/
theorem C52_like_stored {A : Word → Prop} {m m' : Mem} {w : Word} {t : WType} (hag : Agree A m m') (htw : getEncodedType m' w = some t)
    (hw : ∃ d : Datum, d.Valid m' ∧ w = d.encode) (hn : ∀ x, decodeDouble m' w = some x → isNaN x = false) {V : Word → Prop} (hV : ValueSet (proc m) V)
    (hin : ∀ v, V v → Within A m v) {w0 : Word} (h0 : V w0) (ht0 : getEncodedType m w0 = some t) (hd : SameData m m' t w0 w) {v : Word} (hv : V v) :
    WG_COMPARE (proc m') v w = WG_COMPARE (proc m) v w0 ∧ WG_COMPARE (proc m') w v = WG_COMPARE (proc m) w0 v := by
  have ht : t ≠ .record := by rintro rfl; exact hd
  obtain ⟨hV', hs⟩ := C52_valueSet hag htw hw ht hn hV hin
  have hc : typeCode (proc m').reader w = typeCode (proc m).reader w0 := by simp [typeCode, Seg.reader, htw, ht0]
  have hcv : typeCode (proc m').reader v = typeCode (proc m).reader v := by simp [typeCode, Seg.reader, (hs v hv).typ]
  have hp : payload (proc m').reader w = payload (proc m).reader w0 := by
    unfold payload
    have a : (proc m').reader.typ w = some t := htw
    have b : (proc m).reader.typ w0 = some t := ht0
    rw [a, b]
    cases t <;> simp only [SameData] at hd <;> simp only [Seg.reader, hd]
  have hpv := payload_same (hs v hv)
  have r1 : isRec (proc m').reader w = false := by simp [isRec, Seg.reader, htw, ht]
  have r2 : isRec (proc m).reader w0 = false := by simp [isRec, Seg.reader, ht0, ht]
  have rv : isRec (proc m').reader v = isRec (proc m).reader v := by simp [isRec, Seg.reader, (hs v hv).typ]
  -- when the types are equal neither is a record; otherwise the type decides
  have tc : isRec (proc m).reader v = true → compare (typeCode (proc m).reader v) (typeCode (proc m).reader w0) ≠ .eq ∧
      compare (typeCode (proc m).reader w0) (typeCode (proc m).reader v) ≠ .eq := by
    intro hr
    have hvt : getEncodedType m v = some .record := by simpa [isRec, Seg.reader] using hr
    have : typeCode (proc m).reader v ≠ typeCode (proc m).reader w0 := by
      simp only [typeCode, Seg.reader, hvt, ht0]
      exact fun e => ht (code_inj e).symm
    exact ⟨fun e => this (Std.LawfulEqCmp.eq_of_compare (cmp := compare) e), fun e => this (Std.LawfulEqCmp.eq_of_compare (cmp := compare) e).symm⟩
  rw [WG_COMPARE_spec hV' v w (.inl hv) (.inr rfl), WG_COMPARE_spec hV v w0 hv h0, WG_COMPARE_spec hV' w v (.inr rfl) (.inl hv), WG_COMPARE_spec hV w0 v h0 hv]
  rw [specCmp_eq, specCmp_eq, specCmp_eq, specCmp_eq, hc, hcv, hp, hpv]
  by_cases hr : isRec (proc m).reader v = true
  · obtain ⟨t1, t2⟩ := tc hr
    constructor
    · generalize compare (typeCode (proc m).reader v) (typeCode (proc m).reader w0) = x at t1 ⊢
      cases x <;> first | exact absurd rfl t1 | simp only [Ordering.then]
    · generalize compare (typeCode (proc m).reader w0) (typeCode (proc m).reader v) = x at t2 ⊢
      cases x <;> first | exact absurd rfl t2 | simp only [Ordering.then]
  · have hr : isRec (proc m).reader v = false := by simpa using hr
    rw [restCmp_other _ _ _ _ (rv.trans hr) r1, restCmp_other _ _ _ _ hr r2, restCmp_other _ _ _ _ r1 (rv.trans hr), restCmp_other _ _ _ _ r2 hr]
    exact ⟨rfl, rfl⟩

end WG.Param
