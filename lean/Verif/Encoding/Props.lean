import Verif.Encoding.Lemmas
/-!
# Properties of the scalar encodings (C01, C02, C03)

`off` arguments are offsets handed out by the allocators: 8-aligned and, for records and strings, not 0.
-/
namespace WG

/-- Object offsets are multiples of 8. -/
def Aligned (off : Word) : Prop := off &&& 7#64 = 0#64

/-! ## C01 -/

/-- C01: the code returned for any integer decodes to that integer, in the memory left by the encoder,
and is reported as an integer.  Only hypothesis: the cell allocator returned an aligned offset. -/
theorem C01_int_roundtrip (m : Mem) (alloc : Option Word) (v : Word)
    (hal : ∀ off, alloc = some off → Aligned off)
    (hok : (encodeInt m alloc v).2 ≠ illegal) :
    decodeInt (encodeInt m alloc v).1 (encodeInt m alloc v).2 = some v ∧
    getEncodedType (encodeInt m alloc v).1 (encodeInt m alloc v).2 = some .int := by
  unfold encodeInt at *
  by_cases hf : fitsSmallint v
  · simp only [hf, if_true]
    have h7 : encodeSmallint v &&& 7#64 = 3#64 := by
      unfold encodeSmallint; rw [shl_or_and _ _ _ 3 (by decide)]; decide
    have hs : isSmallint (encodeSmallint v) = true := by simp [isSmallint, h7]
    have h3 : encodeSmallint v &&& 3#64 = 3#64 := by rw [and_mask h7 (by decide)]; decide
    have h0 : encodeSmallint v ≠ 0#64 := by intro h; rw [h] at h7; revert h7; decide
    have hv : isVar (encodeSmallint v) = false := by
      simp only [isVar, beq_eq_false_iff_ne, ne_eq]
      intro h; have := and_mask h (show 0xf#64 &&& 7#64 = 7#64 by decide)
      rw [h7] at this; revert this; decide
    constructor
    · simp only [decodeInt, hs, if_true]
      simp only [decodeSmallint, encodeSmallint]
      rw [shl_or_sshr _ _ _ (by decide) (by decide)]
      simpa [fitsSmallint] using hf
    · simp [getEncodedType, h0, h3, hv, hs]
  · simp only [hf] at hok ⊢
    cases alloc with
    | none => simp [illegal] at hok
    | some off =>
      have ha := hal off rfl
      simp only [encodeFullintOffset]
      have h7 : (off ||| 1#64) &&& 7#64 = 1#64 := by
        rw [aligned_or_and _ _ _ ha (by decide)]; decide
      have h3 : (off ||| 1#64) &&& 3#64 = 1#64 := by rw [and_mask h7 (by decide)]; decide
      have h0 : off ||| 1#64 ≠ 0#64 := by intro h; rw [h] at h7; revert h7; decide
      constructor
      · have := aligned_or_andnot3 off ha
        show decodeInt (dbstore m off v) (off ||| 1#64) = some v
        simp only [decodeInt, isSmallint, h7, isFullint, h3, decodeFullintOffset, dbfetch, dbstore, this]
        simp
      · simp [getEncodedType, h0, h3, h7]

/-- C01: integers in [-2^60, 2^60) are kept inline: they need no cell, always succeed, and leave the
database untouched; any other integer succeeds exactly if a cell is available. -/
theorem C01_int_success (m : Mem) (alloc : Option Word) (v : Word)
    (hal : ∀ off, alloc = some off → Aligned off) :
    (-(2:Int)^60 ≤ v.toInt ∧ v.toInt < 2^60 →
      (encodeInt m alloc v).1 = m ∧ (encodeInt m alloc v).2 ≠ illegal) ∧
    (¬ (-(2:Int)^60 ≤ v.toInt ∧ v.toInt < 2^60) →
      ((encodeInt m alloc v).2 ≠ illegal ↔ alloc.isSome)) := by
  have hf : fitsSmallint v = true ↔ (-(2:Int)^60 ≤ v.toInt ∧ v.toInt < 2^60) := by
    rw [← shl_sshr_toInt3]; simp [fitsSmallint]
  constructor
  · intro h
    rw [← hf] at h
    simp only [encodeInt, h, if_true, true_and]
    intro he
    have h7 : encodeSmallint v &&& 7#64 = 3#64 := by
      unfold encodeSmallint; rw [shl_or_and _ _ _ 3 (by decide)]; decide
    rw [he] at h7; revert h7; decide
  · intro h
    rw [← hf] at h
    cases alloc with
    | none => simp [encodeInt, h]
    | some off =>
      simp only [encodeInt, h, Option.isSome_some, iff_true]
      intro he
      have ha := hal off rfl
      have h7 : (off ||| 1#64) &&& 7#64 = 1#64 := by
        rw [aligned_or_and _ _ _ ha (by decide)]; decide
      simp only [encodeFullintOffset] at he
      have he : off ||| 1#64 = illegal := by simpa using he
      rw [he] at h7; revert h7; decide

/-- C01, frame: encoding another integer does not change what an already stored integer decodes to, as
long as the allocator does not hand out a cell that is still in use. -/
theorem C01_int_frame (m : Mem) (alloc : Option Word) (v old : Word)
    (hfresh : ∀ off, alloc = some off → isFullint old → decodeFullintOffset old ≠ off) :
    decodeInt (encodeInt m alloc v).1 old = decodeInt m old := by
  unfold encodeInt
  split
  · rfl
  · cases alloc with
    | none => rfl
    | some off =>
      unfold decodeInt
      split
      · rfl
      · split
        · rename_i h
          have := hfresh off rfl h
          simp [dbfetch, dbstore, this]
        · rfl

/-- Hypotheses of the C01 theorems are met: 2^60 does not fit inline, a free cell at offset 4096. -/
example : decodeInt (encodeInt (fun _ => 0) (some 4096#64) (1#64 <<< 60)).1
    (encodeInt (fun _ => 0) (some 4096#64) (1#64 <<< 60)).2 = some (1#64 <<< 60) :=
  (C01_int_roundtrip _ _ _ (by rintro _ ⟨⟩; show _ = _; decide) (by decide)).1
example : decodeInt (encodeInt (fun _ => 0) none (-5#64)).1
    (encodeInt (fun _ => 0) none (-5#64)).2 = some (-5#64) :=
  (C01_int_roundtrip _ _ _ (by simp) (by decide)).1

/-! ## C02 -/

theorem fitsDate_iff (d : BitVec 32) : fitsDate d = true ↔ d.toInt ≤ 8323200 ∧ d.toInt ≥ -8323200 := by
  unfold fitsDate; rw [Bool.and_eq_true, decide_eq_true_eq, decide_eq_true_eq]; rfl
theorem fitsTime_iff (d : BitVec 32) : fitsTime d = true ↔ d.toInt ≤ 8640000 ∧ d.toInt ≥ 0 := by
  unfold fitsTime; rw [Bool.and_eq_true, decide_eq_true_eq, decide_eq_true_eq]; rfl

/-- C02: every char survives. -/
theorem C02_char_roundtrip (c : BitVec 8) : decodeChar (encodeChar c) = c := by
  unfold decodeChar encodeChar
  rw [shl_or_sshr _ _ _ (by decide) (by decide)]
  apply BitVec.eq_of_getLsbD_eq
  intro i hi
  simp only [BitVec.getLsbD_setWidth, BitVec.getLsbD_sshiftRight, BitVec.getLsbD_shiftLeft,
    BitVec.getLsbD_signExtend]
  have h1 : 8 + i < 64 := by omega
  have h2 : i < 64 := by omega
  have h3 : ¬ 64 ≤ i := by omega
  simp [hi, h1, h2]

/-- C02: a date is accepted exactly in the documented range, and then decodes to itself. -/
theorem C02_date_roundtrip (d : BitVec 32) :
    (encodeDate d ≠ illegal ↔ -(128*255*255) ≤ d.toInt ∧ d.toInt ≤ 128*255*255) ∧
    (encodeDate d ≠ illegal → decodeDate (encodeDate d) = some d) := by
  by_cases hf : fitsDate d
  · have hr : d.toInt ≤ 8323200 ∧ d.toInt ≥ -8323200 := by
      rwa [fitsDate_iff] at hf
    have hff : encodeDate d &&& 0xff#64 = 0x2f#64 := by
      simp only [encodeDate, hf, if_true]; rw [ext_and_ff]; decide
    have hne : encodeDate d ≠ illegal := by
      intro h; rw [h] at hff; revert hff; decide
    refine ⟨⟨fun _ => by omega, fun _ => hne⟩, fun _ => ?_⟩
    have hd : isDate (encodeDate d) = true := by simp [isDate, hff]
    simp only [decodeDate, hd, if_true]
    simp only [encodeDate, hf, if_true]
    rw [ext_sshr_setWidth _ _ (by decide) (by omega) (by omega)]
  · have he : encodeDate d = illegal := by simp [encodeDate, hf]
    have hr : ¬ (d.toInt ≤ 8323200 ∧ d.toInt ≥ -8323200) := by
      rwa [fitsDate_iff] at hf
    refine ⟨⟨fun h => absurd he h, fun h => ?_⟩, fun h => absurd he h⟩
    omega

/-- C02: a time is accepted exactly for 0 .. 24h (in 1/100 s), and then decodes to itself. -/
theorem C02_time_roundtrip (t : BitVec 32) :
    (encodeTime t ≠ illegal ↔ 0 ≤ t.toInt ∧ t.toInt ≤ 24*60*60*100) ∧
    (encodeTime t ≠ illegal → decodeTime (encodeTime t) = some t) := by
  by_cases hf : fitsTime t
  · have hr : t.toInt ≤ 8640000 ∧ t.toInt ≥ 0 := by
      rwa [fitsTime_iff] at hf
    have hff : encodeTime t &&& 0xff#64 = 0x3f#64 := by
      simp only [encodeTime, hf, if_true]; rw [ext_and_ff]; decide
    have hne : encodeTime t ≠ illegal := by
      intro h; rw [h] at hff; revert hff; decide
    refine ⟨⟨fun _ => by omega, fun _ => hne⟩, fun _ => ?_⟩
    have hd : isTime (encodeTime t) = true := by simp [isTime, hff]
    simp only [decodeTime, hd, if_true]
    simp only [encodeTime, hf, if_true]
    rw [ext_ushr _ _ (by decide) (by omega) (by omega)]
  · have he : encodeTime t = illegal := by simp [encodeTime, hf]
    have hr : ¬ (t.toInt ≤ 8640000 ∧ t.toInt ≥ 0) := by
      rwa [fitsTime_iff] at hf
    refine ⟨⟨fun h => absurd he h, fun h => ?_⟩, fun h => absurd he h⟩
    omega

/-- C02: the scaled integer of a fixpoint number is accepted exactly for |data| ≤ 800 and survives. -/
theorem C02_fixpoint_roundtrip (i : BitVec 32) :
    (encodeFixpoint i ≠ illegal ↔ -(800*10000) ≤ i.toInt ∧ i.toInt ≤ 800*10000) ∧
    (encodeFixpoint i ≠ illegal → (decodeFixpoint (encodeFixpoint i)).map BitVec.toInt = some i.toInt) := by
  by_cases hf : fitsFixpoint i
  · have hr : i.toInt ≤ 8000000 ∧ i.toInt ≥ -8000000 := by
      simpa [fitsFixpoint] using hf
    have hff : encodeFixpoint i &&& 0xff#64 = 0xf#64 := by
      simp only [encodeFixpoint, hf, if_true]; rw [ext_and_ff]; decide
    have hne : encodeFixpoint i ≠ illegal := by
      intro h; rw [h] at hff; revert hff; decide
    refine ⟨⟨fun _ => by omega, fun _ => hne⟩, fun _ => ?_⟩
    have hd : isFixpoint (encodeFixpoint i) = true := by simp [isFixpoint, hff]
    simp only [decodeFixpoint, hd, if_true, Option.map_some]
    simp only [encodeFixpoint, hf, if_true]
    rw [ext_sshr _ _ (by decide) (by omega) (by omega)]
  · have he : encodeFixpoint i = illegal := by simp [encodeFixpoint, hf]
    have hr : ¬ (i.toInt ≤ 8000000 ∧ i.toInt ≥ -8000000) := by
      simpa [fitsFixpoint] using hf
    refine ⟨⟨fun h => absurd he h, fun h => ?_⟩, fun h => absurd he h⟩
    omega

/-- C02: a variable number is accepted exactly if it fits 60 signed bits, and then survives. -/
theorem C02_var_roundtrip (v : Word) :
    (encodeVar v ≠ illegal ↔ -(2:Int)^59 ≤ v.toInt ∧ v.toInt < 2^59) ∧
    (encodeVar v ≠ illegal → decodeVar (encodeVar v) = some v) := by
  have hiff : fitsVar v = true ↔ (-(2:Int)^59 ≤ v.toInt ∧ v.toInt < 2^59) := by
    rw [← shl_sshr_toInt4]; simp [fitsVar]
  by_cases hf : fitsVar v
  · have he : encodeVar v = (v <<< 4) ||| 7#64 := by simp [encodeVar, hf]
    have hff : encodeVar v &&& 0xf#64 = 7#64 := by
      rw [he, shl_or_and _ _ _ 4 (by decide)]; decide
    have hne : encodeVar v ≠ illegal := by
      intro h; rw [h] at hff; revert hff; decide
    have h0 : encodeVar v ≠ 0#64 := by
      intro h; rw [h] at hff; revert hff; decide
    refine ⟨⟨fun _ => hiff.1 hf, fun _ => hne⟩, fun _ => ?_⟩
    simp only [decodeVar, h0, if_false]
    rw [he, shl_or_sshr _ _ _ (by decide) (by decide)]
    have : (v <<< 4).sshiftRight 4 = v := by simpa [fitsVar] using hf
    rw [this]
  · have he : encodeVar v = illegal := by simp [encodeVar, hf]
    refine ⟨⟨fun h => absurd he h, fun h => absurd (hiff.2 h) hf⟩, fun h => absurd he h⟩

/-- C02: the inline anonymous-constant encoding is invertible on 56 signed bits. -/
theorem C02_anonconst_roundtrip (v : Word) (h : -(2:Int)^55 ≤ v.toInt ∧ v.toInt < 2^55) :
    decodeAnonconst (encodeAnonconst v) = v := by
  unfold decodeAnonconst encodeAnonconst
  rw [shl_or_sshr _ _ _ (by decide) (by decide)]
  exact (shl_sshr_toInt8 v).2 h

/-- C02: a stored double is read back bit for bit. -/
theorem C02_double_roundtrip (m : Mem) (off v : Word) (ha : Aligned off) :
    decodeDouble (encodeDouble m (some off) v).1 (encodeDouble m (some off) v).2 = some v ∧
    getEncodedType (encodeDouble m (some off) v).1 (encodeDouble m (some off) v).2 = some .double := by
  simp only [encodeDouble, encodeFulldouble]
  have h7 : (off ||| 2#64) &&& 7#64 = 2#64 := by
    rw [aligned_or_and _ _ _ ha (by decide)]; decide
  have h3 : (off ||| 2#64) &&& 3#64 = 2#64 := by rw [and_mask h7 (by decide)]; decide
  have h0 : off ||| 2#64 ≠ 0#64 := by intro h; rw [h] at h7; revert h7; decide
  constructor
  · have := aligned_or_andnot off 2#64 ha (by decide)
    simp only [decodeDouble, isFulldouble, h7, decodeFulldouble, dbfetch, dbstore, this]
    simp
  · simp [getEncodedType, h0, h3, h7]

example : decodeDate (encodeDate (-8323200#32)) = some (-8323200#32) :=
  (C02_date_roundtrip _).2 (by decide)
example : decodeTime (encodeTime 8640000#32) = some 8640000#32 :=
  (C02_time_roundtrip _).2 (by decide)
example : encodeTime 8640001#32 = illegal := by decide
example : decodeVar (encodeVar (-7#64)) = some (-7#64) := (C02_var_roundtrip _).2 (by decide)
example : decodeFixpoint (encodeFixpoint (-8000000#32)) = some (-8000000#64) := by decide
example : Aligned 4104#64 := by show _ = _; decide

/-! ## C03 -/

/-- A piece of data as the caller of an encoder sees it; strings, doubles and large integers are named by
the cell (or object) the allocator chose for them, records by their offset. -/
inductive Datum
  | null
  | record (off : Word)
  | int (v : Word)            -- inline
  | fullint (off : Word)      -- stored in a cell
  | double (off : Word)
  | shortstr (off : Word)
  | longstr (off : Word) (t : WType)
  | char (c : BitVec 8)
  | fixpoint (i : BitVec 32)
  | date (i : BitVec 32)
  | time (i : BitVec 32)
  | var (v : Word)
deriving DecidableEq

/-- Which data can exist in memory `m`: in-range scalars, aligned offsets (records are never at offset 0),
and long string objects whose meta word carries their type (written by `find_create_longstr`,
Db/dbdata.c line 2656). -/
def Datum.Valid (m : Mem) : Datum → Prop
  | .null => True
  | .record off => Aligned off ∧ off ≠ 0#64
  | .int v => -(2:Int)^60 ≤ v.toInt ∧ v.toInt < 2^60
  | .fullint off => Aligned off
  | .double off => Aligned off
  | .shortstr off => Aligned off
  | .longstr off t => Aligned off ∧ (t = .str ∨ t = .xmlliteral ∨ t = .uri ∨ t = .blob ∨ t = .anonconst) ∧
      ((m (off + 8#64) &&& 0xff#64).toNat : Int) = t.code
  | .char _ => True
  | .fixpoint i => -(800*10000) ≤ i.toInt ∧ i.toInt ≤ 800*10000
  | .date i => -(128*255*255) ≤ i.toInt ∧ i.toInt ≤ 128*255*255
  | .time i => 0 ≤ i.toInt ∧ i.toInt ≤ 24*60*60*100
  | .var v => -(2:Int)^59 ≤ v.toInt ∧ v.toInt < 2^59

/-- The type the user asked for. -/
def Datum.type : Datum → WType
  | .null => .null | .record _ => .record | .int _ => .int | .fullint _ => .int | .double _ => .double
  | .shortstr _ => .str | .longstr _ t => t | .char _ => .char | .fixpoint _ => .fixpoint
  | .date _ => .date | .time _ => .time | .var _ => .var

/-- The code word the encoder returns. -/
def Datum.encode : Datum → Word
  | .null => encodeNull
  | .record off => encodeDatarec off
  | .int v => encodeSmallint v
  | .fullint off => encodeFullintOffset off
  | .double off => encodeFulldouble off
  | .shortstr off => encodeShortstr off
  | .longstr off _ => encodeLongstr off
  | .char c => encodeChar c
  | .fixpoint i => encodeFixpoint i
  | .date i => encodeDate i
  | .time i => encodeTime i
  | .var v => encodeVar v

/-- The low byte (or low bits) that each kind of code word carries. -/
private theorem tag_lemmas (m : Mem) (d : Datum) (hv : d.Valid m) :
    match d with
    | .null => d.encode = 0#64
    | .record off => d.encode &&& 7#64 = 0#64 ∧ d.encode = off
    | .int v => d.encode &&& 7#64 = 3#64 ∧ d.encode.sshiftRight 3 = v
    | .fullint off => d.encode &&& 7#64 = 1#64 ∧ d.encode &&& ~~~7#64 = off
    | .double off => d.encode &&& 7#64 = 2#64 ∧ d.encode &&& ~~~7#64 = off
    | .shortstr off => d.encode &&& 7#64 = 6#64 ∧ d.encode &&& ~~~7#64 = off
    | .longstr off _ => d.encode &&& 7#64 = 4#64 ∧ d.encode &&& ~~~7#64 = off
    | .char c => d.encode &&& 0xff#64 = 0x1f#64 ∧ decodeChar d.encode = c
    | .fixpoint i => d.encode &&& 0xff#64 = 0xf#64 ∧ (d.encode.sshiftRight 8).setWidth 32 = i
    | .date i => d.encode &&& 0xff#64 = 0x2f#64 ∧ decodeDate d.encode = some i
    | .time i => d.encode &&& 0xff#64 = 0x3f#64 ∧ decodeTime d.encode = some i
    | .var v => d.encode &&& 0xf#64 = 7#64 ∧ decodeVar d.encode = some v := by
  cases d with
  | null => rfl
  | record off => exact ⟨hv.1, rfl⟩
  | int v =>
    refine ⟨?_, ?_⟩
    · show encodeSmallint v &&& 7#64 = _
      unfold encodeSmallint; rw [shl_or_and _ _ _ 3 (by decide)]; decide
    · show (encodeSmallint v).sshiftRight 3 = v
      unfold encodeSmallint; rw [shl_or_sshr _ _ _ (by decide) (by decide)]
      exact (shl_sshr_toInt3 v).2 hv
  | fullint off =>
    exact ⟨by show (off ||| 1#64) &&& _ = _; rw [aligned_or_and _ _ _ hv (by decide)]; decide,
      aligned_or_andnot off 1#64 hv (by decide)⟩
  | double off =>
    exact ⟨by show (off ||| 2#64) &&& _ = _; rw [aligned_or_and _ _ _ hv (by decide)]; decide,
      aligned_or_andnot off 2#64 hv (by decide)⟩
  | shortstr off =>
    exact ⟨by show (off ||| 6#64) &&& _ = _; rw [aligned_or_and _ _ _ hv (by decide)]; decide,
      aligned_or_andnot off 6#64 hv (by decide)⟩
  | longstr off t =>
    exact ⟨by show (off ||| 4#64) &&& _ = _; rw [aligned_or_and _ _ _ hv.1 (by decide)]; decide,
      aligned_or_andnot off 4#64 hv.1 (by decide)⟩
  | char c =>
    refine ⟨?_, C02_char_roundtrip c⟩
    show encodeChar c &&& _ = _
    unfold encodeChar; rw [shl_or_and _ _ _ 8 (by decide)]; decide
  | fixpoint i =>
    have hf : fitsFixpoint i = true := by
      simp only [Datum.Valid] at hv; simp [fitsFixpoint]; omega
    simp only [Datum.Valid] at hv
    show encodeFixpoint i &&& _ = _ ∧ ((encodeFixpoint i).sshiftRight 8).setWidth 32 = i
    simp only [encodeFixpoint, hf, if_true]
    exact ⟨by rw [ext_and_ff]; decide, by rw [ext_sshr_setWidth _ _ (by decide) (by omega) (by omega)]⟩
  | date i =>
    have hne := (C02_date_roundtrip i).1.2 hv
    refine ⟨?_, (C02_date_roundtrip i).2 hne⟩
    show encodeDate i &&& _ = _
    have hf : fitsDate i = true := by
      simp only [Datum.Valid] at hv; rw [fitsDate_iff]; omega
    simp only [encodeDate, hf, if_true]; rw [ext_and_ff]; decide
  | time i =>
    have hne := (C02_time_roundtrip i).1.2 hv
    refine ⟨?_, (C02_time_roundtrip i).2 hne⟩
    show encodeTime i &&& _ = _
    have hf : fitsTime i = true := by
      simp only [Datum.Valid] at hv; rw [fitsTime_iff]; omega
    simp only [encodeTime, hf, if_true]; rw [ext_and_ff]; decide
  | var v =>
    have hne := (C02_var_roundtrip v).1.2 hv
    refine ⟨?_, (C02_var_roundtrip v).2 hne⟩
    show encodeVar v &&& _ = _
    have hf : fitsVar v = true := by
      have := (shl_sshr_toInt4 v).2 hv
      simpa [fitsVar] using this
    simp only [encodeVar, hf, if_true]; rw [shl_or_and _ _ _ 4 (by decide)]; decide

/-- C03: the reported type of every encoded datum is the type it was encoded as. -/
theorem C03_type_correct (m : Mem) (d : Datum) (hv : d.Valid m) :
    getEncodedType m d.encode = some d.type := by
  have ht := tag_lemmas m d hv
  have narrow : ∀ {x b : Word}, x &&& 0xff#64 = b → ∀ c : Word, 0xff#64 &&& c = c → x &&& c = b &&& c :=
    fun h c hc => and_mask h hc
  cases d with
  | null => simp only at ht; simp [getEncodedType, ht, Datum.type]
  | record off =>
    simp only at ht
    have h0 : (Datum.record off).encode ≠ 0#64 := by rw [ht.2]; exact hv.2
    have h3 := and_mask ht.1 (show 7#64 &&& 3#64 = 3#64 by decide)
    simp [getEncodedType, h0, h3, ht.1, Datum.type]
  | int v =>
    simp only at ht
    have h0 : (Datum.int v).encode ≠ 0#64 := by intro h; rw [h] at ht; revert ht; simp
    have h3 := and_mask ht.1 (show 7#64 &&& 3#64 = 3#64 by decide)
    have hv' : isVar (Datum.int v).encode = false := by
      simp only [isVar, beq_eq_false_iff_ne, ne_eq]
      intro h; have := and_mask h (show 0xf#64 &&& 7#64 = 7#64 by decide)
      rw [ht.1] at this; revert this; decide
    simp [getEncodedType, h0, h3, hv', isSmallint, ht.1, Datum.type]
  | fullint off =>
    simp only at ht
    have h0 : (Datum.fullint off).encode ≠ 0#64 := by intro h; rw [h] at ht; revert ht; simp
    have h3 := and_mask ht.1 (show 7#64 &&& 3#64 = 3#64 by decide)
    simp [getEncodedType, h0, h3, ht.1, Datum.type]
  | double off =>
    simp only at ht
    have h0 : (Datum.double off).encode ≠ 0#64 := by intro h; rw [h] at ht; revert ht; simp
    have h3 := and_mask ht.1 (show 7#64 &&& 3#64 = 3#64 by decide)
    simp [getEncodedType, h0, h3, ht.1, Datum.type]
  | shortstr off =>
    simp only at ht
    have h0 : (Datum.shortstr off).encode ≠ 0#64 := by intro h; rw [h] at ht; revert ht; simp
    have h3 := and_mask ht.1 (show 7#64 &&& 3#64 = 3#64 by decide)
    simp [getEncodedType, h0, h3, ht.1, Datum.type]
  | longstr off t =>
    simp only at ht
    have h0 : (Datum.longstr off t).encode ≠ 0#64 := by intro h; rw [h] at ht; revert ht; simp
    have h3 := and_mask ht.1 (show 7#64 &&& 3#64 = 3#64 by decide)
    obtain ⟨ha, htt, hm⟩ := hv
    have hdec : decodeLongstr (Datum.longstr off t).encode = off := ht.2
    have hty : typeOfCode (dbfetch m (off + 8#64) &&& 0xff#64) = some t := by
      have key : ∀ k : Nat, k < 2^64 → ((m (off + 8#64) &&& 0xff#64).toNat : Int) = k →
          m (off + 8#64) &&& 0xff#64 = BitVec.ofNat 64 k := by
        intro k hk h
        apply BitVec.eq_of_toNat_eq
        rw [BitVec.toNat_ofNat, Nat.mod_eq_of_lt hk]
        exact_mod_cast h
      unfold dbfetch
      rcases htt with rfl | rfl | rfl | rfl | rfl
      · rw [key 5 (by decide) hm]; rfl
      · rw [key 6 (by decide) hm]; rfl
      · rw [key 7 (by decide) hm]; rfl
      · rw [key 8 (by decide) hm]; rfl
      · rw [key 13 (by decide) hm]; rfl
    simp [getEncodedType, h0, h3, ht.1, Datum.type, hdec, hty]
  | char c =>
    simp only at ht
    have h0 : (Datum.char c).encode ≠ 0#64 := by intro h; rw [h] at ht; revert ht; simp
    have h3 := narrow ht.1 3#64 (by decide)
    have hf := narrow ht.1 0xf#64 (by decide)
    have h7 := narrow ht.1 7#64 (by decide)
    simp [getEncodedType, h0, h3, hf, h7, isVar, isSmallint, ht.1, Datum.type]
  | fixpoint c =>
    simp only at ht
    have h0 : (Datum.fixpoint c).encode ≠ 0#64 := by intro h; rw [h] at ht; revert ht; simp
    have h3 := narrow ht.1 3#64 (by decide)
    have hf := narrow ht.1 0xf#64 (by decide)
    have h7 := narrow ht.1 7#64 (by decide)
    simp [getEncodedType, h0, h3, hf, h7, isVar, isSmallint, ht.1, Datum.type]
  | date c =>
    simp only at ht
    have h0 : (Datum.date c).encode ≠ 0#64 := by intro h; rw [h] at ht; revert ht; simp
    have h3 := narrow ht.1 3#64 (by decide)
    have hf := narrow ht.1 0xf#64 (by decide)
    have h7 := narrow ht.1 7#64 (by decide)
    simp [getEncodedType, h0, h3, hf, h7, isVar, isSmallint, ht.1, Datum.type]
  | time c =>
    simp only at ht
    have h0 : (Datum.time c).encode ≠ 0#64 := by intro h; rw [h] at ht; revert ht; simp
    have h3 := narrow ht.1 3#64 (by decide)
    have hf := narrow ht.1 0xf#64 (by decide)
    have h7 := narrow ht.1 7#64 (by decide)
    simp [getEncodedType, h0, h3, hf, h7, isVar, isSmallint, ht.1, Datum.type]
  | var v =>
    simp only at ht
    have h0 : (Datum.var v).encode ≠ 0#64 := by intro h; rw [h] at ht; revert ht; simp
    have h3 := and_mask ht.1 (show 0xf#64 &&& 3#64 = 3#64 by decide)
    simp [getEncodedType, h0, h3, isVar, ht.1, Datum.type]

/-- C03: no encoder result is the reserved word `WG_ILLEGAL`. -/
theorem C03_never_illegal (m : Mem) (d : Datum) (hv : d.Valid m) : d.encode ≠ illegal := by
  intro h
  have := C03_type_correct m d hv
  rw [h] at this
  have h2 : getEncodedType m illegal = none := by
    simp [getEncodedType, illegal, isVar, isSmallint]
  rw [h2] at this; cases this

/-- C03: two different data never share a code word (so in particular values of different types do not,
and neither do two different inline values). -/
theorem C03_injective (m : Mem) (d e : Datum) (hd : d.Valid m) (he : e.Valid m)
    (h : d.encode = e.encode) : d = e := by
  have td := C03_type_correct m d hd
  have te := C03_type_correct m e he
  rw [h, te] at td
  have ty : e.type = d.type := by simpa using td
  have gd := tag_lemmas m d hd
  have ge := tag_lemmas m e he
  have conflict : ∀ {x a b c : Word}, x &&& c = a → x &&& c = b → a ≠ b → False := by
    intro x a b c h1 h2 h3; exact h3 (h1.symm.trans h2)
  cases d <;> cases e <;> simp only [Datum.type] at ty <;>
    first
      | exact absurd ty (by decide)
      | (simp only [h] at gd
         first
          | rfl
          | exact congrArg _ (gd.2.symm.trans ge.2)
          | exact congrArg _ (Option.some.inj (gd.2.symm.trans ge.2))
          | exact (conflict gd.1 ge.1 (by decide)).elim
          | (have h2 := gd.2.symm.trans ge.2
             subst h2; subst ty; rfl)
          | (exfalso; have h2 := he.2.1; rw [ty] at h2; revert h2; decide)
          | (exfalso; have h2 := hd.2.1; rw [← ty] at h2; revert h2; decide))

/-- Hypotheses are satisfiable, for every kind of datum. -/
example : (Datum.record 8192#64).Valid (fun _ => 0) ∧ (Datum.int (-1#64)).Valid (fun _ => 0) ∧
    (Datum.longstr 8192#64 .uri).Valid (fun o => if o = 8200#64 then 0x3007#64 else 0) ∧
    (Datum.date (-3#32)).Valid (fun _ => 0) ∧ (Datum.time 8640000#32).Valid (fun _ => 0) ∧
    (Datum.var 12#64).Valid (fun _ => 0) ∧ (Datum.fixpoint (-5#32)).Valid (fun _ => 0) := by
  refine ⟨?_, ?_, ?_, ?_, ?_, ?_, ?_⟩ <;> simp [Datum.Valid, Aligned, WType.code]

/-- The value of a NULL field is never taken for another datum. -/
theorem C03_null_unique (m : Mem) (d : Datum) (hv : d.Valid m) (h : d.encode = 0#64) : d = .null :=
  C03_injective m d .null hv trivial h

end WG
