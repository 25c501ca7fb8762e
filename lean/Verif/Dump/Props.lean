import Verif.Dump.Lemmas
/-! Properties C35 (dump/import), C36 (corruption detection), C49 (header compatibility). -/
namespace WG

/-! ## C49 -/

/-- C49: accepted iff mark, version and features are those of the library; and the remaining results
identify the reason. -/
theorem C49_header_compat (ver feat : BitVec 32) (h : List Byte) :
    (checkHeaderCompat ver feat h = 0 ↔ hMark h = magicMark ∧ hVersion h = ver ∧ hFeatures h = feat) ∧
    (checkHeaderCompat ver feat h = -2 ↔
      (byteAt h 3, byteAt h 2, byteAt h 1, byteAt h 0) = (0x23#8, 0xb2#8, 0x73#8, 0x49#8)) ∧
    (checkHeaderCompat ver feat h = -3 ↔ hMark h = magicMark ∧ hVersion h ≠ ver) ∧
    (checkHeaderCompat ver feat h = -4 ↔ hMark h = magicMark ∧ hVersion h = ver ∧ hFeatures h ≠ feat) := by
  have hb0 : byteAt (bytes32 magicMark) 0 = 0x23#8 := by decide
  have hb1 : byteAt (bytes32 magicMark) 1 = 0xb2#8 := by decide
  have hb2 : byteAt (bytes32 magicMark) 2 = 0x73#8 := by decide
  have hb3 : byteAt (bytes32 magicMark) 3 = 0x49#8 := by decide
  have hsw : (byteAt h 3, byteAt h 2, byteAt h 1, byteAt h 0) = (0x23#8, 0xb2#8, 0x73#8, 0x49#8) →
      hMark h ≠ magicMark := by
    intro he hm
    simp only [Prod.mk.injEq] at he
    have := le32_inj (a := h) (b := bytes32 magicMark) (x := 0) (by rw [le32_bytes32]; exact hm)
    have h0 := this 0 (by omega) (by omega)
    rw [he.2.2.2, hb0] at h0
    revert h0; decide
  unfold checkHeaderCompat
  rw [hb0, hb1, hb2, hb3]
  by_cases h1 : hMark h = magicMark
  · have hns : ¬ (byteAt h 3, byteAt h 2, byteAt h 1, byteAt h 0) = (0x23#8, 0xb2#8, 0x73#8, 0x49#8) :=
      fun he => hsw he h1
    by_cases h2 : hVersion h = ver
    · by_cases h3 : hFeatures h = feat
      · rw [if_neg (by simp [h1]), if_neg (by simp [h2]), if_neg (by simp [h3])]
        refine ⟨by simp [h1, h2, h3], ⟨fun h => absurd h (by decide), fun h => absurd h hns⟩, by simp [h2], by simp [h3]⟩
      · rw [if_neg (by simp [h1]), if_neg (by simp [h2]), if_pos (by simp [h3])]
        refine ⟨by simp [h3], ⟨fun h => absurd h (by decide), fun h => absurd h hns⟩, by simp [h2], by simp [h1, h2, h3]⟩
    · rw [if_neg (by simp [h1]), if_pos (by simp [h2])]
      refine ⟨by simp [h2], ⟨fun h => absurd h (by decide), fun h => absurd h hns⟩, by simp [h1, h2], by simp [h2]⟩
  · simp only [h1, ne_eq, not_false_eq_true, if_true, false_and, iff_false]
    by_cases hc : (0x23#8 = byteAt h 3 ∧ 0xb2#8 = byteAt h 2 ∧ 0x73#8 = byteAt h 1 ∧ 0x49#8 = byteAt h 0)
    · rw [if_pos hc]
      obtain ⟨a, b, c, d⟩ := hc
      simp [← a, ← b, ← c, ← d]
    · rw [if_neg hc]
      refine ⟨by decide, ⟨fun he => absurd he (by decide), fun he => ?_⟩, by decide, by decide⟩
      simp only [Prod.mk.injEq] at he
      exact absurd ⟨he.1.symm, he.2.1.symm, he.2.2.1.symm, he.2.2.2.symm⟩ hc

example : checkHeaderCompat 7#32 5#32 (bytes32 magicMark ++ bytes32 7#32 ++ bytes32 5#32) = 0 := by decide
example : checkHeaderCompat 7#32 5#32 ((bytes32 magicMark).reverse ++ bytes32 7#32) = -2 := by decide

/-! ## C36 -/

/-- A database image that can be dumped: the used area (at least one dump buffer long, as the initial
areas alone take more) lies inside the segment, the header is that of this library and the checksum field
is 0 (it is set to 0 at creation and after an import, Db/dballoc.c line 109, Db/dbdump.c line 335). -/
def Dumpable (ver feat : BitVec 32) (img : List Byte) : Prop :=
  bufSize ≤ (hFree img).toNat ∧ (hFree img).toNat ≤ img.length ∧ (hFree img).toNat < 2^63 ∧
  checkHeaderCompat ver feat img = 0 ∧ hChecksum img = 0#32

theorem dump_length {ver feat : BitVec 32} {img : List Byte} (h : Dumpable ver feat img) :
    (dump img).length = (hFree img).toNat := by
  obtain ⟨h1, h2, _⟩ := h
  have hb : bufSize = 8192 := rfl
  unfold dump
  rw [length_patch]
  · simp; omega
  · rw [length_bytes32]; simp; omega

theorem byteAt_dump {ver feat : BitVec 32} {img : List Byte} (h : Dumpable ver feat img) (i : Nat)
    (hi : i < (hFree img).toNat) (hc : i < 12 ∨ 16 ≤ i) : byteAt (dump img) i = byteAt img i := by
  obtain ⟨h1, h2, _⟩ := h
  have hb : bufSize = 8192 := rfl
  unfold dump
  rw [byteAt_patch _ _ _ _ (by rw [length_bytes32]; simp; omega), if_neg (by rw [length_bytes32]; omega),
    byteAt_take _ _ _ hi]

/-- C36: `wg_check_dump` accepts what `wg_dump` wrote. -/
theorem C36_accepts_dump (ver feat : BitVec 32) (img : List Byte) (h : Dumpable ver feat img) :
    checkDump ver feat (dump img) = 0 := by
  have hd := h
  obtain ⟨h1, h2, h3, h4, h5⟩ := hd
  have hb : bufSize = 8192 := rfl
  have hl := dump_length h
  have e : ∀ off, (off + 4 ≤ 12 ∨ 16 ≤ off) → off + 4 ≤ bufSize → le32 (dump img) off = le32 img off := by
    intro off ho hlt
    apply le32_congr
    intro i hi
    exact byteAt_dump h _ (by omega) (by omega)
  have ef : hFree (dump img) = hFree img := by
    apply le64_congr
    intro i hi
    exact byteAt_dump h _ (by omega) (by omega)
  rw [checkDump_iff]
  refine ⟨by omega, ?_, ?_, ?_⟩
  · have := compat_zero h4
    rw [(C49_header_compat ver feat (dump img)).1]
    exact ⟨(e 0 (by omega) (by omega)).trans this.1, (e 4 (by omega) (by omega)).trans this.2.1,
      (e 8 (by omega) (by omega)).trans this.2.2⟩
  · rw [hl, ef, BitVec.toInt_eq_toNat_cond, if_pos (by omega)]
  · have hz : patch (dump img) 12 [0#8,0#8,0#8,0#8] = img.take (hFree img).toNat := by
      apply ext_byteAt
      · rw [length_patch _ _ _ (by simp; omega), hl]; simp; omega
      · intro i hi
        rw [length_patch _ _ _ (by simp; omega), hl] at hi
        rw [byteAt_patch _ _ _ _ (by simp; omega), byteAt_take _ _ _ hi]
        simp only [List.length_cons, List.length_nil]
        split
        · rename_i hc
          have h0 : byteAt img i = byteAt (bytes32 0#32) (i - 12) := by
            have hx : le32 img 12 = le32 (patch img 12 (bytes32 0#32)) 12 := by
              rw [le32_patch_same _ _ _ (by omega)]; exact h5
            have := le32_inj hx i (by omega) (by omega)
            rw [this, byteAt_patch _ _ _ _ (by rw [length_bytes32]; omega),
              if_pos (by rw [length_bytes32]; omega)]
          rw [h0]
          have : i - 12 = 0 ∨ i - 12 = 1 ∨ i - 12 = 2 ∨ i - 12 = 3 := by omega
          rcases this with h|h|h|h <;> rw [h] <;> rfl
        · rename_i hc
          exact byteAt_dump h i hi (by omega)
    rw [hz]
    show _ = le32 (dump img) 12
    unfold dump
    rw [le32_patch_same _ _ _ (by simp; omega)]

/-- C36: a truncated dump is rejected. -/
theorem C36_truncated (ver feat : BitVec 32) (f : List Byte) (hok : checkDump ver feat f = 0) (k : Nat)
    (hk : k < f.length) : checkDump ver feat (f.take k) ≠ 0 := by
  intro h
  rw [checkDump_iff] at hok h
  have hb : bufSize = 8192 := rfl
  have hl : (f.take k).length = k := by simp; omega
  rw [hl] at h
  have : hFree (f.take k) = hFree f := by
    apply le64_congr
    intro i hi; exact byteAt_take _ _ _ (by omega)
  rw [this] at h
  omega

/-- C36: a dump with anything appended is rejected. -/
theorem C36_extended (ver feat : BitVec 32) (f g : List Byte) (hok : checkDump ver feat f = 0)
    (hg : g ≠ []) : checkDump ver feat (f ++ g) ≠ 0 := by
  intro h
  have hg' : 0 < g.length := List.length_pos_iff.2 hg
  rw [checkDump_iff] at hok h
  have hb : bufSize = 8192 := rfl
  rw [List.length_append] at h
  have : hFree (f ++ g) = hFree f := by
    apply le64_congr
    intro i hi; exact byteAt_append_left _ _ _ (by omega)
  rw [this] at h
  omega

/-- C36: replacing a run of at most four adjacent bytes by different ones is detected, whatever the
position, as long as the run does not reach from the checksum field (bytes 12-15) into the bytes
following it. -/
theorem C36_burst (ver feat : BitVec 32) (pre p q post : List Byte)
    (hok : checkDump ver feat (pre ++ p ++ post) = 0) (hl : p.length = q.length) (h4 : p.length ≤ 4)
    (hpos : 16 ≤ pre.length ∨ pre.length + p.length ≤ 16) (hne : p ≠ q) :
    checkDump ver feat (pre ++ q ++ post) ≠ 0 := by
  intro hok'
  apply hne
  rw [checkDump_iff] at hok hok'
  obtain ⟨a1, a2, a3, a4⟩ := hok
  obtain ⟨b1, b2, b3, b4⟩ := hok'
  have hb : bufSize = 8192 := rfl
  have lenp : (pre ++ p ++ post).length = pre.length + p.length + post.length := by simp; omega
  have lenq : (pre ++ q ++ post).length = pre.length + q.length + post.length := by simp; omega
  rcases hpos with hpos | hpos
  · have hz : ∀ x : List Byte, patch (pre ++ x ++ post) 12 [0#8,0#8,0#8,0#8] =
        patch pre 12 [0#8,0#8,0#8,0#8] ++ x ++ post := by
      intro x
      unfold patch
      rw [List.append_assoc pre, List.take_append_of_le_length (by omega),
        List.drop_append_of_le_length (by simp; omega)]
      simp only [List.append_assoc]
    have hcs : ∀ x : List Byte, hChecksum (pre ++ x ++ post) = hChecksum pre := by
      intro x
      apply le32_congr
      intro i hi
      rw [List.append_assoc, byteAt_append_left _ _ _ (by omega)]
    rw [hz, hcs] at a4 b4
    exact updateCrc_burst _ p q post hl h4 (a4.trans b4.symm)
  · obtain ⟨c1, c2, c3⟩ := compat_zero a2
    obtain ⟨d1, d2, d3⟩ := compat_zero b2
    have out : ∀ i, 16 ≤ i → byteAt (pre ++ p ++ post) i = byteAt (pre ++ q ++ post) i := by
      intro i hi
      rw [byteAt_append_right _ _ _ (by simp; omega), byteAt_append_right _ _ _ (by simp; omega)]
      simp [hl]
    have low : ∀ i, i < 12 → byteAt (pre ++ p ++ post) i = byteAt (pre ++ q ++ post) i := by
      intro i hi
      by_cases h1 : i < 4
      · exact le32_inj (x := 0) (c1.trans d1.symm) i (by omega) (by omega)
      · by_cases h2 : i < 8
        · exact le32_inj (x := 4) (c2.trans d2.symm) i (by omega) (by omega)
        · exact le32_inj (x := 8) (c3.trans d3.symm) i (by omega) (by omega)
    have hz : patch (pre ++ p ++ post) 12 [0#8,0#8,0#8,0#8] = patch (pre ++ q ++ post) 12 [0#8,0#8,0#8,0#8] := by
      apply ext_byteAt
      · rw [length_patch _ _ _ (by simp at a1 ⊢; omega), length_patch _ _ _ (by simp at b1 ⊢; omega)]
        omega
      · intro i _
        rw [byteAt_patch _ _ _ _ (by simp at a1 ⊢; omega), byteAt_patch _ _ _ _ (by simp at b1 ⊢; omega)]
        split
        · rfl
        · rename_i hc
          simp only [List.length_cons, List.length_nil] at hc
          by_cases h1 : i < 12
          · exact low i h1
          · exact out i (by omega)
    have hcs : hChecksum (pre ++ p ++ post) = hChecksum (pre ++ q ++ post) := by
      rw [← a4, ← b4, hz]
    have mid := le32_inj hcs
    have heq : pre ++ p ++ post = pre ++ q ++ post := by
      apply ext_byteAt (by omega)
      intro i _
      by_cases h1 : i < 12
      · exact low i h1
      · by_cases h2 : i < 16
        · exact mid i (by omega) (by omega)
        · exact out i (by omega)
    have := List.append_cancel_right heq
    exact List.append_cancel_left this

/-- C36: any single changed byte is detected, at every position. -/
theorem C36_single_byte (ver feat : BitVec 32) (pre post : List Byte) (b b' : Byte)
    (hok : checkDump ver feat (pre ++ [b] ++ post) = 0) (hne : b ≠ b') :
    checkDump ver feat (pre ++ [b'] ++ post) ≠ 0 :=
  C36_burst ver feat pre [b] [b'] post hok rfl (by simp) (by simp; omega) (by simpa using hne)

/-- A concrete dumpable image: header followed by zeros, 9000 bytes used of 10000. -/
def sampleImg : List Byte :=
  bytes32 magicMark ++ bytes32 7#32 ++ bytes32 5#32 ++ bytes32 0#32 ++ bytes64 10000#64 ++ bytes64 9000#64 ++
    List.replicate 9968 0#8

theorem byteAt_sample (i : Nat) (h : i < 32) : byteAt sampleImg i =
    byteAt (bytes32 magicMark ++ bytes32 7#32 ++ bytes32 5#32 ++ bytes32 0#32 ++ bytes64 10000#64 ++ bytes64 9000#64) i := by
  unfold sampleImg
  rw [byteAt_append_left _ _ _ (by simpa [length_bytes32, length_bytes64] using h)]

/-- The hypotheses of C36 (and C35) are met by a concrete image. -/
theorem sample_dumpable : Dumpable 7#32 5#32 sampleImg := by
  have hf : hFree sampleImg = 9000#64 := by
    rw [show hFree sampleImg = le64 (bytes32 magicMark ++ bytes32 7#32 ++ bytes32 5#32 ++ bytes32 0#32 ++
      bytes64 10000#64 ++ bytes64 9000#64) 24 from le64_congr fun i hi => byteAt_sample _ (by omega)]
    decide
  have e : ∀ off, off + 4 ≤ 32 → le32 sampleImg off = le32 (bytes32 magicMark ++ bytes32 7#32 ++ bytes32 5#32 ++
      bytes32 0#32 ++ bytes64 10000#64 ++ bytes64 9000#64) off :=
    fun off h => le32_congr fun i hi => byteAt_sample _ (by omega)
  have hlen : sampleImg.length = 10000 := by
    unfold sampleImg; simp only [List.length_append, length_bytes32, length_bytes64, List.length_replicate]
  refine ⟨by rw [hf]; decide, by rw [hf, hlen]; decide, by rw [hf]; decide, ?_, ?_⟩
  · rw [(C49_header_compat _ _ _).1]
    refine ⟨(e 0 (by omega)).trans (by decide), (e 4 (by omega)).trans (by decide), (e 8 (by omega)).trans (by decide)⟩
  · exact (e 12 (by omega)).trans (by decide)

example : checkDump 7#32 5#32 (dump sampleImg) = 0 := C36_accepts_dump _ _ _ sample_dumpable

/-! ## C35 -/

/-- The layout facts used: header fields lie inside the header, behind the fixed part, and apart. -/
structure Layout.WF (L : Layout) : Prop where
  hdr : 32 ≤ L.hdrSize ∧ L.hdrSize ≤ bufSize
  ext : 32 ≤ L.extCount ∧ L.extCount + 8 ≤ L.hdrSize
  gl : 32 ≤ L.glField ∧ L.glField + 8 ≤ L.hdrSize
  wr : 32 ≤ L.wrField ∧ L.wrField + 8 ≤ L.hdrSize

/-- The lock words of an image lie in the used area, behind the fixed part of the header and not on top
of the two header fields that hold their offsets (Db/dballoc.c lines 336-361). -/
def LocksWF (L : Layout) (img : List Byte) : Prop :=
  let g := (le64 img L.glField).toNat
  let w := (le64 img L.wrField).toNat
  32 ≤ g ∧ g + 8 ≤ (hFree img).toNat ∧ 32 ≤ w ∧ w + 8 ≤ (hFree img).toNat ∧
  (g + 8 ≤ L.wrField ∨ L.wrField + 8 ≤ g)

/-- Byte positions that an import legitimately changes: checksum, segment size, the two lock words. -/
def Volatile (L : Layout) (src : List Byte) (i : Nat) : Prop :=
  (12 ≤ i ∧ i < 24) ∨
  ((le64 src L.glField).toNat ≤ i ∧ i < (le64 src L.glField).toNat + 8) ∨
  ((le64 src L.wrField).toNat ≤ i ∧ i < (le64 src L.wrField).toNat + 8)

/-- C35: importing a dump of `src` into a segment `tgt` at least as large as the used area succeeds;
every byte of the used area except checksum, size and the lock words is that of `src`, the rest of the
target segment is untouched, the segment size is the target's own. -/
theorem C35_dump_import (ver feat : BitVec 32) (L : Layout) (hL : L.WF) (src tgt : List Byte)
    (hs : Dumpable ver feat src) (hlk : LocksWF L src) (hext : le64 src L.extCount = 0#64)
    (ht : (hSize tgt).toInt = tgt.length) (hfit : (hFree src).toNat ≤ tgt.length) :
    ∃ img', importDump L tgt (dump src) = (0, some img') ∧ img'.length = tgt.length ∧
      (∀ i, i < (hFree src).toNat → ¬ Volatile L src i → byteAt img' i = byteAt src i) ∧
      (∀ i, (hFree src).toNat ≤ i → byteAt img' i = byteAt tgt i) ∧
      hSize img' = hSize tgt ∧ hChecksum img' = 0#32 := by
  have hd := hs
  obtain ⟨h1, h2, h3, h4, h5⟩ := hd
  have hb : bufSize = 8192 := rfl
  have hlen := dump_length hs
  obtain ⟨⟨hh1, hh2⟩, ⟨he1, he2⟩, ⟨hg1, hg2⟩, ⟨hw1, hw2⟩⟩ := hL
  obtain ⟨k1, k2, k3, k4, k5⟩ := hlk
  have ef : hFree (dump src) = hFree src := le64_congr fun i hi => byteAt_dump hs _ (by omega) (by omega)
  have ee : le64 (dump src) L.extCount = 0#64 := by
    rw [← hext]; exact le64_congr fun i hi => byteAt_dump hs _ (by omega) (by omega)
  have hti : (hFree src).toInt = (hFree src).toNat := by
    rw [BitVec.toInt_eq_toNat_cond, if_pos (by omega)]
  generalize hF : (hFree src).toNat = F at *
  -- the image before the lock initialisation
  let m0 := dump src ++ tgt.drop F
  have hm0len : m0.length = tgt.length := by simp [m0, hlen]; omega
  let m1 := patch m0 16 (bytes64 (hSize tgt))
  have hm1len : m1.length = tgt.length := by
    simp only [m1]; rw [length_patch _ _ _ (by rw [length_bytes64]; omega), hm0len]
  let m2 := patch m1 12 (bytes32 0#32)
  have hm2len : m2.length = tgt.length := by
    simp only [m2]; rw [length_patch _ _ _ (by rw [length_bytes32]; omega), hm1len]
  have b2 : ∀ i, (i < 12 ∨ 24 ≤ i) → byteAt m2 i = if i < F then byteAt src i else byteAt tgt i := by
    intro i hi
    simp only [m2]
    rw [byteAt_patch _ _ _ _ (by rw [length_bytes32]; omega), if_neg (by rw [length_bytes32]; omega)]
    simp only [m1]
    rw [byteAt_patch _ _ _ _ (by rw [length_bytes64]; omega), if_neg (by rw [length_bytes64]; omega)]
    simp only [m0]
    split
    · rename_i hlt
      rw [byteAt_append_left _ _ _ (by omega), byteAt_dump hs i (by omega) (by omega)]
    · rename_i hge
      rw [byteAt_append_right _ _ _ (by omega), hlen, byteAt_drop]
      congr 1; omega
  have hgv : le64 m2 L.glField = le64 src L.glField := by
    apply le64_congr
    intro i hi
    rw [b2 _ (by omega), if_pos (by omega)]
  let m3 := patch m2 (le64 m2 L.glField).toNat (bytes64 0#64)
  have hm3len : m3.length = tgt.length := by
    simp only [m3]; rw [length_patch _ _ _ (by rw [length_bytes64, hgv]; omega), hm2len]
  have hwv : le64 m3 L.wrField = le64 src L.wrField := by
    simp only [m3]
    rw [le64_patch_other _ _ _ _ (by rw [length_bytes64, hgv]; omega) (by rw [length_bytes64, hgv]; omega)]
    apply le64_congr
    intro i hi
    rw [b2 _ (by omega), if_pos (by omega)]
  let m4 := patch m3 (le64 m3 L.wrField).toNat (bytes64 0#64)
  have hm4 : initLocks L m2 = m4 := rfl
  have hm4len : m4.length = tgt.length := by
    simp only [m4]; rw [length_patch _ _ _ (by rw [length_bytes64, hwv]; omega), hm3len]
  have b4 : ∀ i, ¬ ((le64 src L.glField).toNat ≤ i ∧ i < (le64 src L.glField).toNat + 8) →
      ¬ ((le64 src L.wrField).toNat ≤ i ∧ i < (le64 src L.wrField).toNat + 8) →
      byteAt m4 i = byteAt m2 i := by
    intro i n1 n2
    simp only [m4]
    rw [byteAt_patch _ _ _ _ (by rw [length_bytes64, hwv]; omega), if_neg (by rw [length_bytes64, hwv]; omega)]
    simp only [m3]
    rw [byteAt_patch _ _ _ _ (by rw [length_bytes64, hgv]; omega), if_neg (by rw [length_bytes64, hgv]; omega)]
  refine ⟨m4, ?_, hm4len, ?_, ?_, ?_, ?_⟩
  · unfold importDump
    rw [if_neg (by omega), if_neg (by simp [ee])]
    simp only [ef, hti, Int.toNat_natCast]
    rw [if_neg (by omega), if_pos (by omega), if_neg (by omega)]
    have : (dump src).take F = dump src := by rw [← hlen]; exact List.take_length
    rw [this]
    exact rfl
  · intro i hi hv
    unfold Volatile at hv
    rw [b4 i (fun h => hv (Or.inr (Or.inl h))) (fun h => hv (Or.inr (Or.inr h))), b2 i (by omega), if_pos hi]
  · intro i hi
    rw [b4 i (by omega) (by omega), b2 i (by omega), if_neg (by omega)]
  · have hx : hSize m2 = hSize tgt := by
      show le64 m2 16 = le64 tgt 16
      simp only [m2]
      rw [le64_patch_other _ _ _ _ (by rw [length_bytes32]; omega) (by rw [length_bytes32]; omega)]
      simp only [m1]
      rw [le64_patch_same _ _ _ (by omega)]; rfl
    rw [← hx]
    apply le64_congr
    intro i hi
    exact b4 _ (by omega) (by omega)
  · have hx : hChecksum m2 = 0#32 := by
      show le32 m2 12 = _
      simp only [m2]
      rw [le32_patch_same _ _ _ (by omega)]
    rw [← hx]
    apply le32_congr
    intro i hi
    exact b4 _ (by omega) (by omega)

/-- C35: an import that is refused (result -1) leaves the target untouched. -/
theorem C35_refused_import (L : Layout) (tgt file : List Byte) (r : Option (List Byte))
    (h : importDump L tgt file = (-1, r)) : r = some tgt := by
  unfold importDump at h
  split at h
  · simpa using h.symm
  · split at h
    · simpa using h.symm
    · simp only at h
      split at h
      · simpa using h.symm
      · split at h
        · split at h <;> simp at h
        · simpa using h.symm

/-- Known deviation: because all header bytes are copied, also the shared memory key of the target
(`key`, bytes 40-47 of the header) is replaced by that of the dumped database. -/
theorem C35_key_overwritten (ver feat : BitVec 32) (L : Layout) (hL : L.WF) (src tgt : List Byte)
    (hs : Dumpable ver feat src) (hlk : LocksWF L src) (hext : le64 src L.extCount = 0#64)
    (ht : (hSize tgt).toInt = tgt.length) (hfit : (hFree src).toNat ≤ tgt.length)
    (hk : 48 ≤ (le64 src L.glField).toNat ∧ 48 ≤ (le64 src L.wrField).toNat) :
    ∃ img', importDump L tgt (dump src) = (0, some img') ∧ le64 img' 40 = le64 src 40 := by
  obtain ⟨img', h1, _, h3, _⟩ := C35_dump_import ver feat L hL src tgt hs hlk hext ht hfit
  refine ⟨img', h1, ?_⟩
  apply le64_congr
  intro i hi
  have hb : bufSize = 8192 := rfl
  have := hs.1
  apply h3 (40+i) (by omega)
  unfold Volatile; omega

/-- A layout and an image meeting the C35 hypotheses: lock words at 256 and 320, offsets to them stored at
64 and 72. -/
def sampleImg2 : List Byte := patch (patch sampleImg 64 (bytes64 256#64)) 72 (bytes64 320#64)

example : LocksWF ⟨1024, 96, 64, 72⟩ sampleImg2 ∧ le64 sampleImg2 96 = 0#64 ∧
    Layout.WF ⟨1024, 96, 64, 72⟩ := by
  have hlen : sampleImg.length = 10000 := by
    unfold sampleImg; simp only [List.length_append, length_bytes32, length_bytes64, List.length_replicate]
  have hlen2 : (patch sampleImg 64 (bytes64 256#64)).length = 10000 := by
    rw [length_patch _ _ _ (by rw [length_bytes64]; omega), hlen]
  have g : le64 sampleImg2 64 = 256#64 := by
    unfold sampleImg2
    rw [le64_patch_other _ _ _ _ (by rw [length_bytes64]; omega) (by omega), le64_patch_same _ _ _ (by omega)]
  have w : le64 sampleImg2 72 = 320#64 := by
    unfold sampleImg2
    rw [le64_patch_same _ _ _ (by omega)]
  have f : hFree sampleImg2 = 9000#64 := by
    show le64 sampleImg2 24 = _
    unfold sampleImg2
    rw [le64_patch_other _ _ _ _ (by rw [length_bytes64]; omega) (by omega),
      le64_patch_other _ _ _ _ (by rw [length_bytes64]; omega) (by omega)]
    show hFree sampleImg = _
    rw [show hFree sampleImg = le64 (bytes32 magicMark ++ bytes32 7#32 ++ bytes32 5#32 ++ bytes32 0#32 ++
      bytes64 10000#64 ++ bytes64 9000#64) 24 from le64_congr fun i hi => byteAt_sample _ (by omega)]
    decide
  refine ⟨?_, ?_, ⟨by simp [bufSize], by simp, by simp, by simp⟩⟩
  · unfold LocksWF
    simp only [g, w, f]
    decide
  · unfold sampleImg2
    rw [le64_patch_other _ _ _ _ (by rw [length_bytes64]; omega) (by rw [length_bytes64]; omega),
      le64_patch_other _ _ _ _ (by rw [length_bytes64]; omega) (by rw [length_bytes64]; omega)]
    have : ∀ i, i < 8 → byteAt sampleImg (96 + i) = byteAt (bytes64 0#64) (0+i) := by
      intro i hi
      unfold sampleImg
      rw [byteAt_append_right _ _ _ (by simp only [List.length_append, length_bytes32, length_bytes64]; omega)]
      simp only [List.length_append, length_bytes32, length_bytes64]
      have h0 : byteAt (bytes64 0#64) (0 + i) = 0#8 := by
        have : i = 0 ∨ i = 1 ∨ i = 2 ∨ i = 3 ∨ i = 4 ∨ i = 5 ∨ i = 6 ∨ i = 7 := by omega
        rcases this with rfl|rfl|rfl|rfl|rfl|rfl|rfl|rfl <;> decide
      rw [h0]
      unfold byteAt
      rw [List.getD_eq_getElem?_getD, List.getElem?_replicate]
      split <;> rfl
    rw [le64_congr this, le64_bytes64]

end WG
