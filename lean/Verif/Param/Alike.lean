import Verif.Param.Demo

/-!
# Query parameters made at different times
-/
namespace WG.Param

/-- **C84.** Two parameters of the same type and content, made at different times (so in different memories `m1` and `m2`, which agree with the database in `m` on the places `A` in use), compare
alike with every stored value. -/
theorem C84_words {A : Word → Prop} {m m1 m2 : Mem} {w1 w2 : Word} {t : WType} (h1 : Agree A m m1) (h2 : Agree A m m2)
    (t1 : getEncodedType m1 w1 = some t) (t2 : getEncodedType m2 w2 = some t) (d1 : ∃ d : Datum, d.Valid m1 ∧ w1 = d.encode) (d2 : ∃ d : Datum, d.Valid m2 ∧ w2 = d.encode)
    (n1 : ∀ x, decodeDouble m1 w1 = some x → isNaN x = false) (n2 : ∀ x, decodeDouble m2 w2 = some x → isNaN x = false) {V : Word → Prop} (hV : ValueSet (proc m) V)
    (hin : ∀ v, V v → Within A m v) (hd : SameData m1 m2 t w1 w2) {v : Word} (hv : V v) :
    WG_COMPARE (proc m2) v w2 = WG_COMPARE (proc m1) v w1 := by
  have ht : t ≠ .record := by rintro rfl; exact hd
  obtain ⟨V1, s1⟩ := C52_valueSet h1 t1 d1 ht n1 hV hin
  obtain ⟨V2, s2⟩ := C52_valueSet h2 t2 d2 ht n2 hV hin
  have hc : typeCode (proc m2).reader w2 = typeCode (proc m1).reader w1 := by simp [typeCode, Seg.reader, t1, t2]
  have hcv : typeCode (proc m2).reader v = typeCode (proc m1).reader v := by simp [typeCode, Seg.reader, (s1 v hv).typ, (s2 v hv).typ]
  have hp : payload (proc m2).reader w2 = payload (proc m1).reader w1 := by
    unfold payload
    have a : (proc m2).reader.typ w2 = some t := t2
    have b : (proc m1).reader.typ w1 = some t := t1
    rw [a, b]
    cases t <;> simp only [SameData] at hd <;> simp only [Seg.reader, hd]
  have hpv : payload (proc m2).reader v = payload (proc m1).reader v := (payload_same (s2 v hv)).trans (payload_same (s1 v hv)).symm
  have r1 : isRec (proc m1).reader w1 = false := by simp [isRec, Seg.reader, t1, ht]
  have r2 : isRec (proc m2).reader w2 = false := by simp [isRec, Seg.reader, t2, ht]
  have rv : isRec (proc m2).reader v = isRec (proc m1).reader v := by simp [isRec, Seg.reader, (s1 v hv).typ, (s2 v hv).typ]
  have tc : isRec (proc m1).reader v = true → compare (typeCode (proc m1).reader v) (typeCode (proc m1).reader w1) ≠ .eq := by
    intro hr
    have hvt : getEncodedType m1 v = some .record := by simpa [isRec, Seg.reader] using hr
    have : typeCode (proc m1).reader v ≠ typeCode (proc m1).reader w1 := by
      simp only [typeCode, Seg.reader, hvt, t1]
      exact fun e => ht (code_inj e).symm
    exact fun e => this (Std.LawfulEqCmp.eq_of_compare (cmp := compare) e)
  rw [WG_COMPARE_spec V2 v w2 (.inl hv) (.inr rfl), WG_COMPARE_spec V1 v w1 (.inl hv) (.inr rfl), specCmp_eq, specCmp_eq, hc, hcv, hp, hpv]
  by_cases hr : isRec (proc m1).reader v = true
  · have t1 := tc hr
    generalize compare (typeCode (proc m1).reader v) (typeCode (proc m1).reader w1) = x at t1 ⊢
    cases x <;> first | exact absurd rfl t1 | simp only [Ordering.then]
  · have hr : isRec (proc m1).reader v = false := by simpa using hr
    rw [restCmp_other _ _ _ _ (rv.trans hr) r2, restCmp_other _ _ _ _ hr r1]

theorem double_type {m : Mem} {w x : Word} (h : decodeDouble m w = some x) : getEncodedType m w = some .double := by
  unfold decodeDouble isFulldouble at h
  split_ifs at h with h7
  have h7 : w &&& 7#64 = 2#64 := by simpa using h7
  have h3 : w &&& 3#64 = 2#64 := by
    have : w &&& 3#64 = (w &&& 7#64) &&& 3#64 := by rw [BitVec.and_assoc]; rfl
    rw [this, h7]; rfl
  have h0 : w ≠ 0#64 := by rintro rfl; exact absurd h7 (by decide)
  unfold getEncodedType
  rw [if_neg h0, h3, h7]
  simp

/-- **C84.** The parameters that two calls make for the same string, XML literal or URI compare alike with every stored value, if they could be made. Between the calls the rest of memory (`b1` and
`b2`) and what malloc does may have changed. -/
theorem C84_strings {A : Word → Prop} {m b1 b2 : Mem} {f1 f2 : Nat → Option Word} (hA1 : Allocates A f1) (hA2 : Allocates A f2) (h1 : Agree A m b1) (h2 : Agree A m b2)
    {V : Word → Prop} (hV : ValueSet (proc m) V) (hin : ∀ v, V v → Within A m v) {v : Word} (hv : V v) {data : Str} {ext : Option Str} (h0 : 0#8 ∉ data) (he : ∀ e, ext = some e → 0#8 ∉ e) :
    ((paramStr f1 b1 data ext).2 ≠ illegal → (paramStr f2 b2 data ext).2 ≠ illegal →
      WG_COMPARE (proc (paramStr f2 b2 data ext).1) v (paramStr f2 b2 data ext).2 = WG_COMPARE (proc (paramStr f1 b1 data ext).1) v (paramStr f1 b1 data ext).2) ∧
    ((paramXmlliteral f1 b1 data ext).2 ≠ illegal → (paramXmlliteral f2 b2 data ext).2 ≠ illegal →
      WG_COMPARE (proc (paramXmlliteral f2 b2 data ext).1) v (paramXmlliteral f2 b2 data ext).2 = WG_COMPARE (proc (paramXmlliteral f1 b1 data ext).1) v (paramXmlliteral f1 b1 data ext).2) ∧
    ((paramUri f1 b1 data ext).2 ≠ illegal → (paramUri f2 b2 data ext).2 ≠ illegal →
      WG_COMPARE (proc (paramUri f2 b2 data ext).1) v (paramUri f2 b2 data ext).2 = WG_COMPARE (proc (paramUri f1 b1 data ext).1) v (paramUri f1 b1 data ext).2) := by
  have key : ∀ (t : WType) (r1 r2 : Mem × Word), (t = .str ∨ t = .xmlliteral ∨ t = .uri) → StringParam f1 b1 data ext t r1 → StringParam f2 b2 data ext t r2 → r1.2 ≠ illegal → r2.2 ≠ illegal →
      WG_COMPARE (proc r2.1) v r2.2 = WG_COMPARE (proc r1.1) v r1.2 := by
    rintro t r1 r2 ht ⟨n1, ⟨-, e⟩ | ⟨o1, m1, c1, x1, y1⟩⟩ ⟨n2, ⟨-, e2⟩ | ⟨o2, m2, c2, x2, y2⟩⟩ i1 i2
    · exact absurd (by rw [e]) i1
    · exact absurd (by rw [e]) i1
    · exact absurd (by rw [e2]) i2
    · have nd : ∀ {m : Mem} {w : Word}, getEncodedType m w = some t → ∀ x, decodeDouble m w = some x → isNaN x = false := by
        intro m w hw x hx
        rw [double_type hx] at hw
        rcases ht with rfl | rfl | rfl <;> cases hw
      refine C84_words (h1.trans (C52_keeps hA1 m1 c1).1) (h2.trans (C52_keeps hA2 m2 c2).1) c1.typ c2.typ c1.valid c2.valid (nd c1.typ) (nd c2.typ) hV hin ?_ hv
      rcases ht with rfl | rfl | rfl
      · exact x2.trans x1.symm
      · exact ⟨x2.trans x1.symm, y2.trans y1.symm⟩
      · exact ⟨x2.trans x1.symm, y2.trans y1.symm⟩
  exact ⟨key .str _ _ (.inl rfl) (C52_str hA1 b1 h0 he) (C52_str hA2 b2 h0 he), key .xmlliteral _ _ (.inr (.inl rfl)) (C52_xmlliteral hA1 b1 h0 he) (C52_xmlliteral hA2 b2 h0 he),
    key .uri _ _ (.inr (.inr rfl)) (C52_uri hA1 b1 h0 he) (C52_uri hA2 b2 h0 he)⟩

/-- **C84.** The same for integers and for doubles other than NaN. -/
theorem C84_numbers {A : Word → Prop} {m b1 b2 : Mem} {f1 f2 : Nat → Option Word} (hA1 : Allocates A f1) (hA2 : Allocates A f2) (h1 : Agree A m b1) (h2 : Agree A m b2)
    {V : Word → Prop} (hV : ValueSet (proc m) V) (hin : ∀ v, V v → Within A m v) {v : Word} (hv : V v) (x : Word) :
    ((paramInt f1 b1 x).2 ≠ illegal → (paramInt f2 b2 x).2 ≠ illegal →
      WG_COMPARE (proc (paramInt f2 b2 x).1) v (paramInt f2 b2 x).2 = WG_COMPARE (proc (paramInt f1 b1 x).1) v (paramInt f1 b1 x).2) ∧
    (isNaN x = false → (paramDouble f1 b1 x).2 ≠ illegal → (paramDouble f2 b2 x).2 ≠ illegal →
      WG_COMPARE (proc (paramDouble f2 b2 x).1) v (paramDouble f2 b2 x).2 = WG_COMPARE (proc (paramDouble f1 b1 x).1) v (paramDouble f1 b1 x).2) := by
  constructor
  · intro i1 i2
    have nd : ∀ {m : Mem} {w : Word}, getEncodedType m w = some .int → ∀ x, decodeDouble m w = some x → isNaN x = false := by
      intro m w hw x hx
      rw [double_type hx] at hw
      cases hw
    have key : ∀ {f : Nat → Option Word} {b : Mem}, Allocates A f → Agree A m b → (paramInt f b x).2 ≠ illegal → Agree A m (paramInt f b x).1 ∧
        getEncodedType (paramInt f b x).1 (paramInt f b x).2 = some .int ∧ (∃ d : Datum, d.Valid (paramInt f b x).1 ∧ (paramInt f b x).2 = d.encode) ∧
        decodeInt (paramInt f b x).1 (paramInt f b x).2 = some x := by
      intro f b hA hb hi
      rcases C52_int hA b x with ⟨_, e, d, ty, de, _⟩ | ⟨n, ⟨_, e⟩ | ⟨o, hm, c, de⟩⟩
      · rw [e]; exact ⟨hb, ty, d, de⟩
      · exact absurd (by rw [e]) hi
      · exact ⟨hb.trans (C52_keeps hA hm c).1, c.typ, c.valid, de⟩
    obtain ⟨a1, t1, d1, x1⟩ := key hA1 h1 i1
    obtain ⟨a2, t2, d2, x2⟩ := key hA2 h2 i2
    exact C84_words a1 a2 t1 t2 d1 d2 (nd t1) (nd t2) hV hin (x2.trans x1.symm) hv
  · intro hn i1 i2
    obtain ⟨n1, ⟨-, e⟩ | ⟨o1, m1, c1, x1⟩⟩ := C52_double hA1 b1 x
    · exact absurd (by rw [e]) i1
    obtain ⟨n2, ⟨-, e⟩ | ⟨o2, m2, c2, x2⟩⟩ := C52_double hA2 b2 x
    · exact absurd (by rw [e]) i2
    refine C84_words (h1.trans (C52_keeps hA1 m1 c1).1) (h2.trans (C52_keeps hA2 m2 c2).1) c1.typ c2.typ c1.valid c2.valid ?_ ?_ hV hin (x2.trans x1.symm) hv
    · intro y hy
      rw [x1] at hy; cases hy; exact hn
    · intro y hy
      rw [x2] at hy; cases hy; exact hn

/-- A second malloc, with blocks at another place. -/
def demoMalloc2 (n : Nat) : Option Word := if n ≤ 1000 then some 2097152#64 else none

theorem demo_allocates2 : Allocates demoUsed demoMalloc2 := by
  intro n o h
  unfold demoMalloc2 at h
  split at h
  · cases h
    refine ⟨by unfold Aligned; decide, by rw [show (2097152#64 : Word).toNat = 2097152 from rfl]; omega, fun a hb hu => ?_⟩
    unfold InBlock at hb; unfold demoUsed at hu
    rw [show (2097152#64 : Word).toNat = 2097152 from rfl] at hb
    omega
  · cases h

/-- A case: the parameters for "b" are two words, which compare alike with the stored "ab". -/
theorem demo_alike : (paramStr demoMalloc demoMem [98#8] none).2 ≠ (paramStr demoMalloc2 demoMem [98#8] none).2 ∧
    WG_COMPARE (proc (paramStr demoMalloc2 demoMem [98#8] none).1) (encodeShortstr 4096#64) (paramStr demoMalloc2 demoMem [98#8] none).2 =
      WG_COMPARE (proc (paramStr demoMalloc demoMem [98#8] none).1) (encodeShortstr 4096#64) (paramStr demoMalloc demoMem [98#8] none).2 :=
  ⟨by decide, (C84_strings demo_allocates demo_allocates2 (fun _ _ => rfl) (fun _ _ => rfl) demo_values.1 demo_values.2 rfl (by decide) (by simp)).1 (by decide) (by decide)⟩

end WG.Param
