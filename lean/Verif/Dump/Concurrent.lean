import Verif.Dump.Props
import Verif.Locks.Rpspin
/-!
# C37: dumping while other processes work

Model of `wg_dump_internal` (Db/dbdump.c lines 85-181, `locking` non-zero, USE_DBLOG undefined) running beside
other processes that lock and unlock the database (the reader-preference lock of `Verif/Locks/Rpspin.lean`)
and, while they hold the exclusive lock, change the memory segment in any way.  The dumping process is process
0; it reads the segment one byte at a time, once for the checksum and once for the file.  The lock word is
part of the segment, at offset `L` (Db/dballoc.c lines 345-361).

Simplifications: the file system does not fail; the file is the list of bytes written.
-/
namespace WG

/-- Where the dumping process is. `snap` is not in the program: it is the segment at the moment when
the shared lock was acquired. -/
inductive DPc where
  | start
  /-- after reading `dbh->free` (line 88) -/
  | sized (n : Nat)
  /-- computing the checksum (line 138); `seen`: the bytes read so far -/
  | crc (n : Nat) (snap seen : List Byte)
  /-- writing the file (line 141) -/
  | wr (n : Nat) (snap : List Byte) (crc : BitVec 32) (out : List Byte)
  /-- the checksum field is overwritten (lines 143-144); before the unlock (line 155) -/
  | done (n : Nat) (snap file : List Byte)

/-- The system: the segment (without the lock word's current value), the lock with all processes, and the dump. -/
structure DSys where
  img : List Byte
  rp : RpState
  d : DPc

/-- The segment as a process sees it: with the lock word. -/
def DSys.mem (L : Nat) (s : DSys) : List Byte := patch s.img L (bytes64 s.rp.gl)

def DPc.reading : DPc → Bool
  | .crc _ _ _ | .wr _ _ _ _ => true
  | _ => false

/-- Steps. `noise = false` leaves out lock traffic of the other processes while the dump reads the segment. -/
inductive DStep (L : Nat) (noise : Bool) : DSys → DSys → Prop
  /-- line 88: the size is read before the lock is taken -/
  | size (s : DSys) : s.d = .start → DStep L noise s { s with d := .sized (hFree (s.mem L)).toNat }
  /-- line 115: steps of db_rlock -/
  | lock (s : DSys) (n : Nat) (pc pc' : RpPc) (gl' : Word) : s.d = .sized n → s.rp.pcs[0]? = some pc →
      RpStep1 pc s.rp.gl pc' gl' → pc ≠ .rHold → pc' = .rEnter ∨ pc' = .rSpin ∨ pc' = .rHold →
      DStep L noise s { s with rp := ⟨gl', s.rp.pcs.set 0 pc'⟩ }
  /-- line 117: db_rlock gives up -/
  | fail (s : DSys) (n : Nat) (gl' : Word) : s.d = .sized n → s.rp.pcs[0]? = some .rSpin →
      RpStep1 .rSpin s.rp.gl .idle gl' → DStep L noise s { s with rp := ⟨gl', s.rp.pcs.set 0 .idle⟩, d := .start }
  | locked (s : DSys) (n : Nat) : s.d = .sized n → s.rp.pcs[0]? = some .rHold →
      DStep L noise s { s with d := .crc n (s.mem L) [] }
  | crcByte (s : DSys) (n : Nat) (snap seen : List Byte) : s.d = .crc n snap seen → seen.length < n →
      DStep L noise s { s with d := .crc n snap (seen ++ [byteAt (s.mem L) seen.length]) }
  | crcEnd (s : DSys) (n : Nat) (snap seen : List Byte) : s.d = .crc n snap seen → seen.length = n →
      DStep L noise s { s with d := .wr n snap (updateCrc seen 0#32) [] }
  | writeByte (s : DSys) (n : Nat) (snap out : List Byte) (c : BitVec 32) : s.d = .wr n snap c out → out.length < n →
      DStep L noise s { s with d := .wr n snap c (out ++ [byteAt (s.mem L) out.length]) }
  | writeEnd (s : DSys) (n : Nat) (snap out : List Byte) (c : BitVec 32) : s.d = .wr n snap c out → out.length = n →
      DStep L noise s { s with d := .done n snap (patch out 12 (bytes32 c)) }
  | unlock (s : DSys) (n : Nat) (snap file : List Byte) (gl' : Word) : s.d = .done n snap file →
      s.rp.pcs[0]? = some .rHold → RpStep1 .rHold s.rp.gl .idle gl' →
      DStep L noise s { s with rp := ⟨gl', s.rp.pcs.set 0 .idle⟩ }
  /-- another process: a step of a lock or unlock call -/
  | other (s : DSys) (i : Nat) (pc pc' : RpPc) (gl' : Word) : i ≠ 0 → s.rp.pcs[i]? = some pc →
      RpStep1 pc s.rp.gl pc' gl' → (noise = false → s.d.reading = false ∨ gl' = s.rp.gl) →
      DStep L noise s { s with rp := ⟨gl', s.rp.pcs.set i pc'⟩ }
  /-- another process, holding the exclusive lock, changes the database -/
  | mutate (s : DSys) (i : Nat) (img' : List Byte) : i ≠ 0 → s.rp.pcs[i]? = some .wHold →
      img'.length = s.img.length → DStep L noise s { s with img := img' }

/-- Reachable from an unlocked database with contents `img`. -/
inductive DReach (L : Nat) (noise : Bool) (k : Nat) (img : List Byte) : DSys → Prop
  | init : DReach L noise k img ⟨img, ⟨0#64, List.replicate k .idle⟩, .start⟩
  | step {s s' : DSys} : DReach L noise k img s → DStep L noise s s' → DReach L noise k img s'

/-- Not a byte of the lock word. -/
def OffLock (L i : Nat) : Prop := i < L ∨ L + 8 ≤ i

/-- `l` agrees with `snap` (with noise: outside the lock word). -/
def Agree (L : Nat) (noise : Bool) (l snap : List Byte) : Prop :=
  ∀ i, i < l.length → (noise = false ∨ OffLock L i) → byteAt l i = byteAt snap i

/-- Invariant. -/
def DInv (L : Nat) (noise : Bool) (k N : Nat) (s : DSys) : Prop :=
  RpReach k s.rp ∧ s.img.length = N ∧
  (s.d.reading = true → s.rp.pcs[0]? = some .rHold) ∧
  match s.d with
  | .start | .sized _ => True
  | .crc n snap seen => snap.length = N ∧ Agree L noise (s.mem L) snap ∧ seen.length ≤ n ∧
      (n ≤ N → Agree L noise seen snap)
  | .wr n snap c out => snap.length = N ∧ Agree L noise (s.mem L) snap ∧ out.length ≤ n ∧
      (n ≤ N → Agree L noise out snap) ∧
      ∃ seen, seen.length = n ∧ (n ≤ N → Agree L noise seen snap) ∧ c = updateCrc seen 0#32
  | .done n snap file => snap.length = N ∧ ∃ seen out : List Byte, seen.length = n ∧ out.length = n ∧
      (n ≤ N → Agree L noise seen snap ∧ Agree L noise out snap) ∧
      file = patch out 12 (bytes32 (updateCrc seen 0#32))

theorem mem_length {L N : Nat} {s : DSys} (h : s.img.length = N) (hL : L + 8 ≤ N) : (s.mem L).length = N := by
  unfold DSys.mem
  rw [length_patch _ _ _ (by rw [length_bytes64]; omega), h]

theorem mem_off {L N : Nat} {s : DSys} (h : s.img.length = N) (hL : L + 8 ≤ N) {i : Nat} (hi : OffLock L i) :
    byteAt (s.mem L) i = byteAt s.img i := by
  unfold DSys.mem OffLock at *
  rw [byteAt_patch _ _ _ _ (by rw [length_bytes64]; omega), if_neg (by rw [length_bytes64]; omega)]

theorem Agree.refl (L : Nat) (noise : Bool) (l : List Byte) : Agree L noise l l := fun _ _ _ => rfl

theorem Agree.nil (L : Nat) (noise : Bool) (l : List Byte) : Agree L noise [] l := fun i h => by simp at h

theorem Agree.snoc {L : Nat} {noise : Bool} {seen snap mem : List Byte} (h : Agree L noise seen snap)
    (hm : Agree L noise mem snap) (hlt : seen.length < mem.length) :
    Agree L noise (seen ++ [byteAt mem seen.length]) snap := by
  intro i hi ho
  simp only [List.length_append, List.length_singleton] at hi
  by_cases hc : i < seen.length
  · rw [byteAt_append_left _ _ _ hc]; exact h i hc ho
  · have : i = seen.length := by omega
    subst this
    rw [byteAt_append_right _ _ _ (by omega), Nat.sub_self]
    exact hm _ hlt ho

theorem dinv {L : Nat} {noise : Bool} {k : Nat} {img : List Byte} (hk : k < 2 ^ 62) (hL : L + 8 ≤ img.length)
    {s : DSys} (h : DReach L noise k img s) : DInv L noise k img.length s := by
  induction h with
  | init => exact ⟨.init, rfl, by simp [DPc.reading], trivial⟩
  | @step s s' _ hst ih =>
    obtain ⟨hr, hlen, hh, hd⟩ := ih
    cases hst with
    | size h1 => exact ⟨hr, hlen, by simp [DPc.reading], trivial⟩
    | lock n pc pc' gl' h1 h2 h3 h4 h5 =>
      exact ⟨.step hr (.mk s.rp 0 pc pc' gl' h2 h3), hlen, by simp [h1, DPc.reading], by simp [h1]⟩
    | fail n gl' h1 h2 h3 => exact ⟨.step hr (.mk s.rp 0 _ _ gl' h2 h3), hlen, by simp [DPc.reading], trivial⟩
    | locked n h1 h2 =>
      exact ⟨hr, hlen, fun _ => h2, mem_length hlen hL, Agree.refl _ _ _, by simp, fun _ => Agree.nil _ _ _⟩
    | crcByte n snap seen h1 h2 =>
      rw [h1] at hd hh
      obtain ⟨d1, d2, d3, d4⟩ := hd
      refine ⟨hr, hlen, fun _ => hh rfl, d1, d2, by simp; omega, fun hn => (d4 hn).snoc d2 ?_⟩
      rw [mem_length hlen hL]; omega
    | crcEnd n snap seen h1 h2 =>
      rw [h1] at hd hh
      obtain ⟨d1, d2, d3, d4⟩ := hd
      exact ⟨hr, hlen, fun _ => hh rfl, d1, d2, by simp, fun _ => Agree.nil _ _ _, seen, h2, d4, rfl⟩
    | writeByte n snap out c h1 h2 =>
      rw [h1] at hd hh
      obtain ⟨d1, d2, d3, d4, d5⟩ := hd
      refine ⟨hr, hlen, fun _ => hh rfl, d1, d2, by simp; omega, fun hn => (d4 hn).snoc d2 ?_, d5⟩
      rw [mem_length hlen hL]; omega
    | writeEnd n snap out c h1 h2 =>
      rw [h1] at hd
      obtain ⟨d1, d2, d3, d4, seen, d5, d6, rfl⟩ := hd
      exact ⟨hr, hlen, by simp [DPc.reading], d1, seen, out, d5, h2, fun hn => ⟨d6 hn, d4 hn⟩, rfl⟩
    | unlock n snap file gl' h1 h2 h3 =>
      rw [h1] at hd
      exact ⟨.step hr (.mk s.rp 0 _ _ gl' h2 h3), hlen, by simp [h1, DPc.reading], by simp only [h1]; exact hd⟩
    | other i pc pc' gl' h0 h1 h2 h3 =>
      have hr' : RpReach k ⟨gl', s.rp.pcs.set i pc'⟩ := .step hr (.mk s.rp i pc pc' gl' h1 h2)
      have hh' : s.d.reading = true → (s.rp.pcs.set i pc')[0]? = some .rHold := by
        intro hx
        rw [List.getElem?_set_ne h0]; exact hh hx
      -- the agreement of the memory survives
      have key : ∀ snap : List Byte, s.d.reading = true → Agree L noise (s.mem L) snap →
          Agree L noise (DSys.mem L { s with rp := ⟨gl', s.rp.pcs.set i pc'⟩ }) snap := by
        intro snap hrd ha j hj ho
        by_cases hj' : OffLock L j
        · rw [mem_off (N := img.length) (by exact hlen) hL hj', ← mem_off hlen hL hj']
          refine ha j ?_ (Or.inr hj')
          rw [mem_length hlen hL]
          rwa [mem_length (N := img.length) (by exact hlen) hL] at hj
        · have hnoise := ho.resolve_right hj'
          rcases h3 hnoise with h4 | h4
          · rw [hrd] at h4; cases h4
          · subst h4
            exact ha j hj ho
      refine ⟨hr', hlen, hh', ?_⟩
      simp only
      cases hsd : s.d with
      | start => trivial
      | sized n => trivial
      | crc n snap seen =>
        rw [hsd] at hd key
        obtain ⟨d1, d2, d3⟩ := hd
        have := key snap rfl d2
        exact ⟨d1, this, d3⟩
      | wr n snap c out =>
        rw [hsd] at hd key
        obtain ⟨d1, d2, d3⟩ := hd
        exact ⟨d1, key snap rfl d2, d3⟩
      | done n snap file => rw [hsd] at hd; exact hd
    | mutate i img' h0 h1 h2 =>
      have hnr : s.d.reading = false := by
        cases hrd : s.d.reading with
        | false => rfl
        | true => exact absurd (hh hrd) (C32_exclusive k hk s.rp hr i 0 h0 h1).2
      refine ⟨hr, h2.trans hlen, by rw [hnr]; simp, ?_⟩
      simp only
      cases hsd : s.d with
      | start => trivial
      | sized n => trivial
      | crc n snap seen => rw [hsd] at hnr; cases hnr
      | wr n snap c out => rw [hsd] at hnr; cases hnr
      | done n snap file => rw [hsd] at hd; exact hd

/-- C37, partial: whatever the other processes do, outside the lock word and the checksum field the dump file
is the segment as it was when the dump got its lock, cut at the size read before. Missing from the full claim:
the size is that of the moment of the snapshot, and the file passes the check (see the counterexamples). -/
theorem C37_snapshot_partial {L : Nat} {k : Nat} {img : List Byte} (hk : k < 2 ^ 62) (hL : L + 8 ≤ img.length)
    {noise : Bool} {s : DSys} (h : DReach L noise k img s) {n : Nat} {snap file : List Byte}
    (hd : s.d = .done n snap file) (hn : 16 ≤ n) (hN : n ≤ img.length) :
    file.length = n ∧ ∀ i, i < n → OffLock L i → ¬ (12 ≤ i ∧ i < 16) → byteAt file i = byteAt snap i := by
  have hi := dinv hk hL h
  unfold DInv at hi
  rw [hd] at hi
  obtain ⟨_, _, _, _, seen, out, h1, h2, h3, rfl⟩ := hi
  obtain ⟨ha, hb⟩ := h3 hN
  constructor
  · rw [length_patch _ _ _ (by rw [length_bytes32]; omega), h2]
  · intro i hlt ho hc
    rw [byteAt_patch _ _ _ _ (by rw [length_bytes32]; omega), if_neg (by rw [length_bytes32]; omega)]
    exact hb i (by omega) (Or.inr ho)

/-- C37, partial: if the database did not grow between reading the size and getting the lock, and no other
process locks or unlocks while the dump reads, the file is exactly the dump of the snapshot, and
`wg_check_dump` accepts it. -/
theorem C37_accepted_partial {L : Nat} {k : Nat} {img : List Byte} (hk : k < 2 ^ 62) (hL : L + 8 ≤ img.length)
    {s : DSys} (h : DReach L false k img s) {n : Nat} {snap file : List Byte} {ver feat : BitVec 32}
    (hd : s.d = .done n snap file) (hsize : n = (hFree snap).toNat) (hok : Dumpable ver feat snap) :
    file = dump snap ∧ checkDump ver feat file = 0 := by
  have hi := dinv hk hL h
  unfold DInv at hi
  rw [hd] at hi
  obtain ⟨_, _, _, hlen, seen, out, h1, h2, h3, rfl⟩ := hi
  have hnN : n ≤ img.length := by rw [hsize, ← hlen]; exact hok.2.1
  obtain ⟨ha, hb⟩ := h3 hnN
  have heq : ∀ l : List Byte, l.length = n → Agree L false l snap → l = snap.take n := by
    intro l hl hag
    apply ext_byteAt
    · rw [hl, List.length_take]; omega
    · intro i hlt
      rw [byteAt_take _ _ _ (by omega)]
      exact hag i hlt (Or.inl rfl)
  have e : patch out 12 (bytes32 (updateCrc seen 0#32)) = dump snap := by
    rw [heq seen h1 ha, heq out h2 hb]
    unfold dump
    rw [hsize]
  rw [e]
  exact ⟨rfl, C36_accepts_dump ver feat snap hok⟩

/-! ## Counterexamples -/

theorem DReach.then {L : Nat} {noise : Bool} {k : Nat} {img : List Byte} {s s' : DSys} (h : DReach L noise k img s)
    (hs : DStep L noise s s') : DReach L noise k img s' := .step h hs

theorem take_snoc_byteAt (l : List Byte) (j : Nat) (h : j < l.length) : l.take j ++ [byteAt l j] = l.take (j + 1) := by
  rw [List.take_succ_eq_append_getElem h, byteAt, List.getD_eq_getElem?_getD, List.getElem?_eq_getElem h]
  rfl

/-- The dump running alone through the checksum. -/
theorem run_crc {L : Nat} {noise : Bool} {k : Nat} {img : List Byte} {s : DSys} {n : Nat} {snap : List Byte}
    (h : DReach L noise k img s) (hd : s.d = .crc n snap []) (hn : n ≤ (s.mem L).length) :
    DReach L noise k img { s with d := .wr n snap (updateCrc ((s.mem L).take n) 0#32) [] } := by
  have : ∀ j, j ≤ n → DReach L noise k img { s with d := .crc n snap ((s.mem L).take j) } := by
    intro j
    induction j with
    | zero => intro _; rw [List.take_zero, ← hd]; exact h
    | succ j ih =>
      intro hj
      have h1 := ih (by omega)
      have h2 := h1.then (.crcByte _ n snap ((s.mem L).take j) rfl (by rw [List.length_take]; omega))
      have hl : ((s.mem L).take j).length = j := by rw [List.length_take]; omega
      simp only [hl] at h2
      have hm : DSys.mem L { s with d := .crc n snap ((s.mem L).take j) } = s.mem L := rfl
      rw [hm, take_snoc_byteAt _ _ (by omega)] at h2
      exact h2
  have h1 := this n (Nat.le_refl _)
  exact h1.then (.crcEnd _ n snap _ rfl (by rw [List.length_take]; omega))

/-- The dump running alone through the write. -/
theorem run_write {L : Nat} {noise : Bool} {k : Nat} {img : List Byte} {s : DSys} {n : Nat} {snap : List Byte}
    {c : BitVec 32} (h : DReach L noise k img s) (hd : s.d = .wr n snap c []) (hn : n ≤ (s.mem L).length) :
    DReach L noise k img { s with d := .done n snap (patch ((s.mem L).take n) 12 (bytes32 c)) } := by
  have : ∀ j, j ≤ n → DReach L noise k img { s with d := .wr n snap c ((s.mem L).take j) } := by
    intro j
    induction j with
    | zero => intro _; rw [List.take_zero, ← hd]; exact h
    | succ j ih =>
      intro hj
      have h1 := ih (by omega)
      have h2 := h1.then (.writeByte _ n snap ((s.mem L).take j) c rfl (by rw [List.length_take]; omega))
      have hl : ((s.mem L).take j).length = j := by rw [List.length_take]; omega
      simp only [hl] at h2
      have hm : DSys.mem L { s with d := .wr n snap c ((s.mem L).take j) } = s.mem L := rfl
      rw [hm, take_snoc_byteAt _ _ (by omega)] at h2
      exact h2
  have h1 := this n (Nat.le_refl _)
  exact h1.then (.writeEnd _ n snap _ c rfl (by rw [List.length_take]; omega))

theorem hFree_patch_lock {img : List Byte} {L : Nat} {w : Word} (h1 : 32 ≤ L) (h2 : L + 8 ≤ img.length) :
    hFree (patch img L (bytes64 w)) = hFree img :=
  le64_patch_other _ _ _ _ (by rw [length_bytes64]; omega) (by omega)

theorem hChecksum_patch_lock {img : List Byte} {L : Nat} {w : Word} (h1 : 32 ≤ L) (h2 : L + 8 ≤ img.length) :
    hChecksum (patch img L (bytes64 w)) = hChecksum img :=
  le32_patch_other _ _ _ _ (by rw [length_bytes64]; omega) (by omega)

theorem dumpable_patch_lock {img : List Byte} {L : Nat} {w : Word} {ver feat : BitVec 32} (h1 : 32 ≤ L)
    (h2 : L + 8 ≤ img.length) (h : Dumpable ver feat img) : Dumpable ver feat (patch img L (bytes64 w)) := by
  obtain ⟨a, b, c, d, e⟩ := h
  have hl : (patch img L (bytes64 w)).length = img.length := length_patch _ _ _ (by rw [length_bytes64]; omega)
  refine ⟨by rw [hFree_patch_lock h1 h2]; exact a, by rw [hFree_patch_lock h1 h2, hl]; exact b,
    by rw [hFree_patch_lock h1 h2]; exact c, ?_, by rw [hChecksum_patch_lock h1 h2]; exact e⟩
  have hc := compat_zero d
  have e32 : ∀ off, off + 4 ≤ 32 → le32 (patch img L (bytes64 w)) off = le32 img off :=
    fun off ho => le32_patch_other _ _ _ _ (by rw [length_bytes64]; omega) (by omega)
  rw [(C49_header_compat ver feat _).1]
  exact ⟨(e32 0 (by omega)).trans hc.1, (e32 4 (by omega)).trans hc.2.1, (e32 8 (by omega)).trans hc.2.2⟩

/-- **Growth race**: if the database grew between reading the size and getting the lock, the finished dump file
is not accepted. -/
theorem C37_size_race_rejected {L : Nat} {k : Nat} {img : List Byte} (hk : k < 2 ^ 62) (hL : L + 8 ≤ img.length)
    (hL32 : 32 ≤ L) {noise : Bool} {s : DSys} (h : DReach L noise k img s) {n : Nat} {snap file : List Byte}
    (ver feat : BitVec 32) (hd : s.d = .done n snap file) (hn : 32 ≤ n) (hN : n ≤ img.length)
    (hsize : (n : Int) ≠ (hFree snap).toInt) : checkDump ver feat file ≠ 0 := by
  obtain ⟨h1, h2⟩ := C37_snapshot_partial hk hL h hd (by omega) hN
  rw [Ne, checkDump_iff]
  rintro ⟨_, _, hlen, _⟩
  apply hsize
  have : hFree file = hFree snap := by
    apply le64_congr
    intro i hi
    exact h2 _ (by omega) (Or.inl (by omega)) (by omega)
  rw [← this, ← hlen, h1]

/-- The sample image grown by 500 bytes. -/
def grownImg : List Byte := patch sampleImg 24 (bytes64 9500#64)

theorem sampleImg_length : sampleImg.length = 10000 := by
  unfold sampleImg; simp only [List.length_append, length_bytes32, length_bytes64, List.length_replicate]

theorem sampleImg_hFree : hFree sampleImg = 9000#64 := by
  rw [show hFree sampleImg = le64 (bytes32 magicMark ++ bytes32 7#32 ++ bytes32 5#32 ++ bytes32 0#32 ++
    bytes64 10000#64 ++ bytes64 9000#64) 24 from le64_congr fun i hi => byteAt_sample _ (by omega)]
  decide

/-- The growth race happens: a complete run, every process using the locks properly, whose dump is rejected. -/
theorem C37_size_race_counterexample :
    ∃ (s : DSys) (snap file : List Byte), DReach 64 false 2 sampleImg s ∧ s.d = .done 9000 snap file ∧
      checkDump 7#32 5#32 file ≠ 0 := by
  have hlen : ∀ w : Word, (patch sampleImg 64 (bytes64 w)).length = 10000 := by
    intro w; rw [length_patch _ _ _ (by rw [length_bytes64, sampleImg_length]; omega), sampleImg_length]
  have hglen : grownImg.length = 10000 := by
    unfold grownImg; rw [length_patch _ _ _ (by rw [length_bytes64, sampleImg_length]; omega), sampleImg_length]
  have h0 : DReach 64 false 2 sampleImg ⟨sampleImg, ⟨0#64, [.idle, .idle]⟩, .start⟩ := .init
  have h1 := h0.then (.size _ rfl)
  have hf : (hFree (DSys.mem 64 ⟨sampleImg, ⟨0#64, [.idle, .idle]⟩, .start⟩)).toNat = 9000 := by
    unfold DSys.mem
    rw [hFree_patch_lock (by omega) (by rw [sampleImg_length]; omega), sampleImg_hFree]; rfl
  rw [hf] at h1
  -- process 1 locks, grows the database, unlocks
  have h2 := h1.then (.other _ 1 .idle .wFirst 0#64 (by simp) rfl (.callW _) (fun _ => Or.inl rfl))
  have h3 := h2.then (.other _ 1 .wFirst .wHold 1#64 (by simp) rfl .firstOk (fun _ => Or.inl rfl))
  have h4 := h3.then (.mutate _ 1 grownImg (by simp) rfl (by rw [hglen]; exact sampleImg_length.symm))
  have h5 := h4.then (.other _ 1 .wHold .idle _ (by simp) rfl (.wRelease _) (fun _ => Or.inl rfl))
  -- the dump locks and runs
  have h6 := h5.then (.lock _ 9000 .idle .rEnter _ rfl rfl (.callR _) (by simp) (by simp))
  have h7 := h6.then (.lock _ 9000 .rEnter .rSpin _ rfl rfl (.rEnter _) (by simp) (by simp))
  have h8 := h7.then (.lock _ 9000 .rSpin .rHold _ rfl rfl (.rOk _ (by decide)) (by simp) (by simp))
  have h9 := h8.then (.locked _ 9000 rfl rfl)
  have hmem : ∀ (rp : RpState) (d : DPc), 9000 ≤ (DSys.mem 64 ⟨grownImg, rp, d⟩).length := by
    intro rp d
    rw [mem_length (N := 10000) hglen (by omega)]; omega
  have h10 := run_crc h9 rfl (hmem _ _)
  have h11 := run_write h10 rfl (hmem _ _)
  refine ⟨_, _, _, h11, rfl, ?_⟩
  refine C37_size_race_rejected (by omega) (by rw [sampleImg_length]; omega) (by omega) h11 7#32 5#32 rfl (by omega)
    (by rw [sampleImg_length]; omega) ?_
  have hfs : hFree (patch grownImg 64 (bytes64 2#64)) = 9500#64 := by
    rw [hFree_patch_lock (by omega) (by rw [hglen]; omega)]
    exact le64_patch_same _ _ _ (by rw [sampleImg_length]; omega)
  show (9000 : Int) ≠ (hFree (patch grownImg 64 (bytes64 2#64))).toInt
  rw [hfs]; decide

/-- A run to which `C37_accepted_partial` applies: process 1 writes before the dump starts. -/
example : ∃ (s : DSys) (snap file : List Byte), DReach 64 false 2 sampleImg s ∧
    s.d = .done (hFree snap).toNat snap file ∧ Dumpable 7#32 5#32 snap ∧ checkDump 7#32 5#32 file = 0 := by
  have hfree : ∀ w : Word, hFree (patch sampleImg 64 (bytes64 w)) = 9000#64 := by
    intro w
    rw [hFree_patch_lock (by omega) (by rw [sampleImg_length]; omega), sampleImg_hFree]
  have h0 : DReach 64 false 2 sampleImg ⟨sampleImg, ⟨0#64, [.idle, .idle]⟩, .start⟩ := .init
  have h0a := h0.then (.other _ 1 .idle .wFirst 0#64 (by simp) rfl (.callW _) (fun _ => Or.inl rfl))
  have h0b := h0a.then (.other _ 1 .wFirst .wHold 1#64 (by simp) rfl .firstOk (fun _ => Or.inl rfl))
  have h0c := h0b.then (.mutate _ 1 sampleImg (by simp) rfl rfl)
  have h0d := h0c.then (.other _ 1 .wHold .idle 0#64 (by simp) rfl (.wRelease _) (fun _ => Or.inl rfl))
  have h1 := h0d.then (.size _ rfl)
  have hf : (hFree (DSys.mem 64 ⟨sampleImg, ⟨0#64, [.idle, .idle]⟩, .start⟩)).toNat = 9000 := by
    unfold DSys.mem
    rw [hfree]; rfl
  simp only [List.set] at h1
  rw [hf] at h1
  have h6 := h1.then (.lock _ 9000 .idle .rEnter _ rfl rfl (.callR _) (by simp) (by simp))
  have h7 := h6.then (.lock _ 9000 .rEnter .rSpin _ rfl rfl (.rEnter _) (by simp) (by simp))
  have h8 := h7.then (.lock _ 9000 .rSpin .rHold _ rfl rfl (.rOk _ (by decide)) (by simp) (by simp))
  have h9 := h8.then (.locked _ 9000 rfl rfl)
  have hmem : ∀ (rp : RpState) (d : DPc), 9000 ≤ (DSys.mem 64 ⟨sampleImg, rp, d⟩).length := by
    intro rp d
    rw [mem_length (N := 10000) sampleImg_length (by omega)]; omega
  have h10 := run_write (run_crc h9 rfl (hmem _ _)) rfl (hmem _ _)
  have hsz : 9000 = (hFree (patch sampleImg 64 (bytes64 2#64))).toNat := by rw [hfree]; rfl
  have hdp : Dumpable 7#32 5#32 (patch sampleImg 64 (bytes64 2#64)) :=
    dumpable_patch_lock (by omega) (by rw [sampleImg_length]; omega) sample_dumpable
  refine ⟨_, patch sampleImg 64 (bytes64 2#64), _, h10, by rw [← hsz]; rfl, hdp, ?_⟩
  exact (C37_accepted_partial (by omega) (by rw [sampleImg_length]; omega) h10 (n := 9000) rfl hsz hdp).2

/-- **Lock traffic**: a reader entering the database between the checksum and the write makes the finished file
be rejected, although the database itself does not change at all. -/
theorem C37_lock_traffic_counterexample :
    ∃ (s : DSys) (snap file : List Byte), DReach 64 true 2 sampleImg s ∧ s.d = .done 9000 snap file ∧
      hFree snap = 9000#64 ∧ checkDump 7#32 5#32 file ≠ 0 := by
  have hlen : ∀ w : Word, (patch sampleImg 64 (bytes64 w)).length = 10000 := by
    intro w; rw [length_patch _ _ _ (by rw [length_bytes64, sampleImg_length]; omega), sampleImg_length]
  have hfree : ∀ w : Word, hFree (patch sampleImg 64 (bytes64 w)) = 9000#64 := by
    intro w
    rw [hFree_patch_lock (by omega) (by rw [sampleImg_length]; omega), sampleImg_hFree]
  have h0 : DReach 64 true 2 sampleImg ⟨sampleImg, ⟨0#64, [.idle, .idle]⟩, .start⟩ := .init
  have h1 := h0.then (.size _ rfl)
  have hf : (hFree (DSys.mem 64 ⟨sampleImg, ⟨0#64, [.idle, .idle]⟩, .start⟩)).toNat = 9000 := by
    unfold DSys.mem
    rw [hfree]; rfl
  rw [hf] at h1
  have h6 := h1.then (.lock _ 9000 .idle .rEnter _ rfl rfl (.callR _) (by simp) (by simp))
  have h7 := h6.then (.lock _ 9000 .rEnter .rSpin _ rfl rfl (.rEnter _) (by simp) (by simp))
  have h8 := h7.then (.lock _ 9000 .rSpin .rHold _ rfl rfl (.rOk _ (by decide)) (by simp) (by simp))
  have h9 := h8.then (.locked _ 9000 rfl rfl)
  have hmem : ∀ (rp : RpState) (d : DPc), 9000 ≤ (DSys.mem 64 ⟨sampleImg, rp, d⟩).length := by
    intro rp d
    rw [mem_length (N := 10000) sampleImg_length (by omega)]; omega
  have h10 := run_crc h9 rfl (hmem _ _)
  -- process 1 enters as a reader
  have h11 := h10.then (.other _ 1 .idle .rEnter _ (by simp) rfl (.callR _) (by simp))
  have h12 := h11.then (.other _ 1 .rEnter .rSpin _ (by simp) rfl (.rEnter _) (by simp))
  have h13 := run_write h12 rfl (hmem _ _)
  refine ⟨_, _, _, h13, rfl, hfree 2#64, ?_⟩
  -- the file is the dump of the snapshot with another byte 64
  have hdump := C36_accepts_dump 7#32 5#32 (patch sampleImg 64 (bytes64 2#64))
    (dumpable_patch_lock (by omega) (by rw [sampleImg_length]; omega) sample_dumpable)
  generalize hcrc : updateCrc ((patch sampleImg 64 (bytes64 2#64)).take 9000) 0#32 = crc at *
  have hd : dump (patch sampleImg 64 (bytes64 2#64)) = patch ((patch sampleImg 64 (bytes64 2#64)).take 9000) 12 (bytes32 crc) := by
    unfold dump
    rw [hfree, ← hcrc]; rfl
  rw [hd] at hdump
  show checkDump 7#32 5#32 (patch ((patch sampleImg 64 (bytes64 4#64)).take 9000) 12 (bytes32
    (updateCrc ((patch sampleImg 64 (bytes64 2#64)).take 9000) 0#32))) ≠ 0
  rw [hcrc]
  have lenD : ∀ w : Word, (patch ((patch sampleImg 64 (bytes64 w)).take 9000) 12 (bytes32 crc)).length = 9000 := by
    intro w
    rw [length_patch _ _ _ (by rw [length_bytes32, List.length_take, hlen]; omega), List.length_take, hlen]; rfl
  have byteD : ∀ (w : Word) (i : Nat), i < 9000 → byteAt (patch ((patch sampleImg 64 (bytes64 w)).take 9000) 12 (bytes32 crc)) i =
      if 12 ≤ i ∧ i < 16 then byteAt (bytes32 crc) (i - 12) else
      if 64 ≤ i ∧ i < 72 then byteAt (bytes64 w) (i - 64) else byteAt sampleImg i := by
    intro w i hi
    rw [byteAt_patch _ _ _ _ (by rw [length_bytes32, List.length_take, hlen]; omega), length_bytes32, byteAt_take _ _ _ hi,
      byteAt_patch _ _ _ _ (by rw [length_bytes64, sampleImg_length]; omega), length_bytes64]
  have split : ∀ l : List Byte, l.length = 9000 → l = l.take 64 ++ [byteAt l 64] ++ l.drop 65 := by
    intro l hl
    rw [take_snoc_byteAt _ _ (by omega), List.take_append_drop]
  have eq1 : patch ((patch sampleImg 64 (bytes64 4#64)).take 9000) 12 (bytes32 crc) =
      (patch ((patch sampleImg 64 (bytes64 2#64)).take 9000) 12 (bytes32 crc)).take 64 ++ [4#8] ++
      (patch ((patch sampleImg 64 (bytes64 2#64)).take 9000) 12 (bytes32 crc)).drop 65 := by
    apply ext_byteAt
    · simp only [List.length_append, List.length_take, List.length_drop, lenD, List.length_singleton]; rfl
    · intro i hi
      rw [lenD] at hi
      rw [byteD _ _ hi]
      have hl64 : ((patch ((patch sampleImg 64 (bytes64 2#64)).take 9000) 12 (bytes32 crc)).take 64).length = 64 := by
        rw [List.length_take, lenD]; rfl
      by_cases h1 : i < 64
      · rw [List.append_assoc, byteAt_append_left _ _ _ (by omega), byteAt_take _ _ _ h1, byteD _ _ hi]
        rw [if_neg (by omega : ¬ (64 ≤ i ∧ i < 72)), if_neg (by omega : ¬ (64 ≤ i ∧ i < 72))]
      · by_cases h2 : i = 64
        · subst h2
          rw [byteAt_append_left _ _ _ (by rw [List.length_append, hl64]; simp),
            byteAt_append_right _ _ _ (by omega), hl64, if_neg (by omega), if_pos (by omega)]
          decide
        · rw [byteAt_append_right _ _ _ (by rw [List.length_append, hl64]; simp; omega), byteAt_drop, List.length_append, hl64,
            List.length_singleton, show 65 + (i - (64 + 1)) = i by omega, byteD _ _ hi]
          by_cases h3 : 64 ≤ i ∧ i < 72
          · rw [if_pos h3, if_pos h3]
            have : ∀ j : Fin 8, 1 ≤ j.val → byteAt (bytes64 4#64) j.val = byteAt (bytes64 2#64) j.val := by decide
            have := this ⟨i - 64, by omega⟩ (by simp; omega)
            simp only at this
            rw [this]
          · rw [if_neg h3, if_neg h3]
  have hb : byteAt (patch ((patch sampleImg 64 (bytes64 2#64)).take 9000) 12 (bytes32 crc)) 64 = 2#8 := by
    rw [byteD _ _ (by omega), if_neg (by omega), if_pos (by omega)]; decide
  rw [split _ (lenD _), hb] at hdump
  rw [eq1]
  exact C36_single_byte 7#32 5#32 _ _ 2#8 4#8 hdump (by decide)

end WG
