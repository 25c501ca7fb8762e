import Verif.Locks.Common
/-!
# Writer-preference spin lock

Model of `db_wpspin_wlock`, `db_wpspin_wulock`, `db_wpspin_rlock`, `db_wpspin_rulock` (Db/dblock.c lines
713-918) as a transition system, one step per atomic access of the lock word `*gl` or the writer count `*w`.
Same simplifications as in `Verif.Locks.Rpspin`.
-/
namespace WG

/-- Where a process is. -/
inductive WpPc where
  | idle
  /-- in wlock, before `atomic_increment(w, 1)` (line 737) -/
  | wEnter
  /-- before the first compare_and_swap (line 740) -/
  | wFirst
  /-- spinning, before reading `*gl` (line 758); also where the timeout is checked (764-769) -/
  | wSpin
  /-- `*gl` was 0, before the compare_and_swap (line 758) -/
  | wCas
  /-- wlock has returned 1 -/
  | wHold
  /-- in wulock, after `atomic_and` (line 803), before `atomic_increment(w, -1)` (line 806) -/
  | wLeave
  /-- in rlock, before the first test of `*w` (line 840) -/
  | rFirst
  /-- before reading `*gl` (line 841) -/
  | rRead0
  /-- `readers` was read, before the compare_and_swap (line 842) -/
  | rCas0 (readers : Word)
  /-- in the loop, before testing `*w` (lines 859, 862); also where the timeout is checked (866-868) -/
  | rWait
  /-- before reading `*gl` (line 882) -/
  | rRead
  /-- before the compare_and_swap (line 892) -/
  | rCas (readers : Word)
  /-- before testing `*w` (line 894) -/
  | rAgain
  /-- rlock has returned 1 -/
  | rHold
deriving DecidableEq, Repr

/-- One atomic step of one process: program counter, lock word and writer count before and after. -/
inductive WpStep1 : WpPc → Word → Word → WpPc → Word → Word → Prop
  | callW (gl w) : WpStep1 .idle gl w .wEnter gl w
  | callR (gl w) : WpStep1 .idle gl w .rFirst gl w
  /-- line 737 -/
  | wEnter (gl w) : WpStep1 .wEnter gl w .wFirst gl (w + 1#64)
  /-- line 740 -/
  | firstOk (w) : WpStep1 .wFirst 0#64 w .wHold 1#64 w
  | firstFail (gl w) : gl ≠ 0#64 → WpStep1 .wFirst gl w .wSpin gl w
  /-- line 758 -/
  | spinFree (w) : WpStep1 .wSpin 0#64 w .wCas 0#64 w
  | spinBusy (gl w) : gl ≠ 0#64 → WpStep1 .wSpin gl w .wSpin gl w
  /-- lines 765-768, `atomic_increment(w, -1); return 0` -/
  | wTimeout (gl w) : WpStep1 .wSpin gl w .idle gl (w - 1#64)
  /-- line 758 -/
  | casOk (w) : WpStep1 .wCas 0#64 w .wHold 1#64 w
  | casFail (gl w) : gl ≠ 0#64 → WpStep1 .wCas gl w .wSpin gl w
  /-- line 803 -/
  | wRelease (gl w) : WpStep1 .wHold gl w .wLeave (gl &&& ~~~1#64) w
  /-- line 806 -/
  | wLeave (gl w) : WpStep1 .wLeave gl w .idle gl (w - 1#64)
  /-- line 840 -/
  | rFirstFree (gl) : WpStep1 .rFirst gl 0#64 .rRead0 gl 0#64
  | rFirstBusy (gl w) : w ≠ 0#64 → WpStep1 .rFirst gl w .rWait gl w
  /-- line 841, `readers = (*gl) & ~WAFLAG` -/
  | rRead0 (gl w) : WpStep1 .rRead0 gl w (.rCas0 (gl &&& ~~~1#64)) gl w
  /-- line 842 -/
  | rCas0Ok (gl w) : WpStep1 (.rCas0 gl) gl w .rHold (gl + 2#64) w
  | rCas0Fail (gl w r) : gl ≠ r → WpStep1 (.rCas0 r) gl w .rWait gl w
  /-- lines 859, 862 -/
  | rWaitFree (gl) : WpStep1 .rWait gl 0#64 .rRead gl 0#64
  | rWaitBusy (gl w) : w ≠ 0#64 → WpStep1 .rWait gl w .rWait gl w
  /-- lines 867-868 -/
  | rTimeout (gl w) : WpStep1 .rWait gl w .idle gl w
  /-- line 882 -/
  | rRead (gl w) : WpStep1 .rRead gl w (.rCas (gl &&& ~~~1#64)) gl w
  /-- line 892 -/
  | rCasOk (gl w) : WpStep1 (.rCas gl) gl w .rHold (gl + 2#64) w
  | rCasFail (gl w r) : gl ≠ r → WpStep1 (.rCas r) gl w .rAgain gl w
  /-- line 894 -/
  | rAgainFree (gl) : WpStep1 .rAgain gl 0#64 .rRead gl 0#64
  | rAgainBusy (gl w) : w ≠ 0#64 → WpStep1 .rAgain gl w .rWait gl w
  /-- line 917, `atomic_increment(gl, -RC_INCR)` -/
  | rRelease (gl w) : WpStep1 .rHold gl w .idle (gl - 2#64) w

structure WpState where
  gl : Word
  w : Word
  pcs : List WpPc

/-- Some process makes a step. -/
inductive WpStep : WpState → WpState → Prop
  | mk (s i pc pc' gl' w') : s.pcs[i]? = some pc → WpStep1 pc s.gl s.w pc' gl' w' →
      WpStep s ⟨gl', w', s.pcs.set i pc'⟩

/-- States reachable with `n` processes from the state after `wg_init_locks` (Db/dblock.c 1267-1268). -/
inductive WpReach (n : Nat) : WpState → Prop
  | init : WpReach n ⟨0#64, 0#64, List.replicate n .idle⟩
  | step {s s'} : WpReach n s → WpStep s s' → WpReach n s'

/-! ## Invariant -/

def WpPc.isW (p : WpPc) : Bool := p == .wHold
def WpPc.isR (p : WpPc) : Bool := p == .rHold
/-- A writer that has announced itself and not left yet. -/
def WpPc.isWriter : WpPc → Bool
  | .wFirst | .wSpin | .wCas | .wHold | .wLeave => true
  | _ => false
/-- the remembered lock word has WAFLAG clear -/
def WpPc.EvenOk : WpPc → Prop
  | .rCas0 r | .rCas r => r.toNat % 2 = 0
  | _ => True

structure WpInv (n : Nat) (s : WpState) : Prop where
  len : s.pcs.length = n
  word : s.gl.toNat = s.pcs.countP WpPc.isW + 2 * s.pcs.countP WpPc.isR
  one : s.pcs.countP WpPc.isW ≤ 1
  excl : s.pcs.countP WpPc.isW = 1 → s.pcs.countP WpPc.isR = 0
  wcount : s.w.toNat = s.pcs.countP WpPc.isWriter
  even : ∀ pc ∈ s.pcs, pc.EvenOk

theorem wp_inv_init (n : Nat) : WpInv n ⟨0#64, 0#64, List.replicate n .idle⟩ := by
  have h : ∀ p : WpPc → Bool, p .idle = false → (List.replicate n WpPc.idle).countP p = 0 := by
    intro p hp; rw [List.countP_replicate, hp]; simp
  refine ⟨by simp, ?_, ?_, ?_, ?_, ?_⟩
  · rw [h _ rfl, h _ rfl]; rfl
  · rw [h _ rfl]; omega
  · rw [h _ rfl]; omega
  · rw [h _ rfl]; rfl
  · intro pc hpc; rw [List.eq_of_mem_replicate hpc]; trivial

theorem word_add_one (x : Word) (h : x.toNat + 1 < 2 ^ 64) : (x + 1#64).toNat = x.toNat + 1 := by
  rw [BitVec.toNat_add]; simp; omega

theorem word_sub_one (x : Word) (h : 1 ≤ x.toNat) : (x - 1#64).toNat = x.toNat - 1 := by
  rw [BitVec.toNat_sub]
  have := x.isLt
  simp
  omega

theorem wp_inv_step (n : Nat) (hn : n < 2 ^ 62) (s s' : WpState) (h : WpInv n s) (hs : WpStep s s') : WpInv n s' := by
  cases hs with
  | mk i pc pc' gl' w' hi h1 =>
    have hw := countP_set_add WpPc.isW s.pcs i pc pc' hi
    have hc := countP_set_add WpPc.isWriter s.pcs i pc pc' hi
    have hr := countP_set_add WpPc.isR s.pcs i pc pc' hi
    have hlen : s.pcs.countP WpPc.isR ≤ n := by rw [← h.len]; exact List.countP_le_length
    have hlen2 : s.pcs.countP WpPc.isWriter ≤ n := by rw [← h.len]; exact List.countP_le_length
    have hmem : pc ∈ s.pcs := List.mem_of_getElem? hi
    have hposW := fun hp : WpPc.isW pc = true => List.countP_pos_iff.2 ⟨pc, hmem, hp⟩
    have hposC := fun hp : WpPc.isWriter pc = true => List.countP_pos_iff.2 ⟨pc, hmem, hp⟩
    have hposR := fun hp : WpPc.isR pc = true => List.countP_pos_iff.2 ⟨pc, hmem, hp⟩
    obtain ⟨hl, hword, hone, hex, hwc, hev⟩ := h
    have hpcev := hev pc hmem
    have hev' : pc'.EvenOk → ∀ x ∈ s.pcs.set i pc', x.EvenOk := by
      intro hp x hx
      rcases List.mem_or_eq_of_mem_set hx with h | h
      · exact hev x h
      · rw [h]; exact hp
    clear hev hmem
    generalize hgl : s.gl = gl at *
    generalize hww : s.w = w at *
    have z0 : (0#64 : Word).toNat = 0 := rfl
    have z1 : (1#64 : Word).toNat = 1 := rfl
    suffices H : gl'.toNat = (s.pcs.set i pc').countP WpPc.isW + 2 * (s.pcs.set i pc').countP WpPc.isR ∧
        (s.pcs.set i pc').countP WpPc.isW ≤ 1 ∧
        ((s.pcs.set i pc').countP WpPc.isW = 1 → (s.pcs.set i pc').countP WpPc.isR = 0) ∧
        w'.toNat = (s.pcs.set i pc').countP WpPc.isWriter ∧ pc'.EvenOk from
      ⟨by simpa using hl, H.1, H.2.1, H.2.2.1, H.2.2.2.1, hev' H.2.2.2.2⟩
    clear hev' hl
    generalize (s.pcs.set i pc').countP WpPc.isW = nw' at *
    generalize (s.pcs.set i pc').countP WpPc.isWriter = nc' at *
    generalize (s.pcs.set i pc').countP WpPc.isR = nr' at *
    generalize s.pcs.countP WpPc.isW = nw at *
    generalize s.pcs.countP WpPc.isWriter = nc at *
    generalize s.pcs.countP WpPc.isR = nr at *
    have even_read : ∀ x : Word, (x &&& ~~~1#64).toNat % 2 = 0 := by
      intro x; rw [word_andnot_one]; omega
    cases h1 with
    | wEnter =>
      rw [word_add_one _ (by omega)]
      simp [WpPc.isW, WpPc.isR, WpPc.isWriter] at hw hc hr
      refine ⟨?_, ?_, ?_, ?_, trivial⟩ <;> omega
    | wTimeout | wLeave =>
      have hp := hposC rfl
      rw [word_sub_one _ (by omega)]
      simp [WpPc.isW, WpPc.isR, WpPc.isWriter] at hw hc hr
      refine ⟨?_, ?_, ?_, ?_, trivial⟩ <;> omega
    | wRelease =>
      have hp := hposW rfl
      rw [word_andnot_one]
      simp [WpPc.isW, WpPc.isR, WpPc.isWriter] at hw hc hr
      refine ⟨?_, ?_, ?_, ?_, trivial⟩ <;> omega
    | rRelease =>
      have hp := hposR rfl
      rw [word_sub_two _ (by omega)]
      simp [WpPc.isW, WpPc.isR, WpPc.isWriter] at hw hc hr
      refine ⟨?_, ?_, ?_, ?_, trivial⟩ <;> omega
    | rCas0Ok | rCasOk =>
      have hpe := hpcev
      simp only [WpPc.EvenOk] at hpe
      rw [word_add_two _ (by omega)]
      simp [WpPc.isW, WpPc.isR, WpPc.isWriter] at hw hc hr
      refine ⟨?_, ?_, ?_, ?_, trivial⟩ <;> omega
    | rRead0 | rRead =>
      have he := even_read gl'
      simp [WpPc.isW, WpPc.isR, WpPc.isWriter] at hw hc hr
      refine ⟨?_, ?_, ?_, ?_, he⟩ <;> omega
    | _ =>
      simp [WpPc.isW, WpPc.isR, WpPc.isWriter] at hw hc hr
      refine ⟨?_, ?_, ?_, ?_, trivial⟩ <;> omega

theorem wp_inv (n : Nat) (hn : n < 2 ^ 62) (s : WpState) (h : WpReach n s) : WpInv n s := by
  induction h with
  | init => exact wp_inv_init n
  | step _ h2 ih => exact wp_inv_step n hn _ _ ih h2

/-! ## Property C33 -/

/-- C33: while a process holds the write lock no other process holds the lock in either mode. -/
theorem C33_exclusive (n : Nat) (hn : n < 2 ^ 62) (s : WpState) (h : WpReach n s) (i j : Nat) (hij : i ≠ j)
    (hi : s.pcs[i]? = some .wHold) : s.pcs[j]? ≠ some .wHold ∧ s.pcs[j]? ≠ some .rHold := by
  have hI := wp_inv n hn s h
  constructor
  · intro hj
    have := countP_two WpPc.isW s.pcs i j _ _ hij hi hj rfl rfl
    have := hI.one
    omega
  · intro hj
    have h1 := countP_pos_of_getElem? WpPc.isW s.pcs i _ hi rfl
    have h2 := countP_pos_of_getElem? WpPc.isR s.pcs j _ hj rfl
    have := hI.one
    have := hI.excl (by omega)
    omega

/-- Sequences of steps during which process `i` stays an announced writer. -/
inductive WpRunWith (i : Nat) : WpState → WpState → Prop
  | refl (s) : WpRunWith i s s
  | step {s s' s''} (pc) : WpRunWith i s s' → WpStep s' s'' → s''.pcs[i]? = some pc → pc.isWriter = true →
      WpRunWith i s s''

/-- A reader that is past its check of the writer count, or holds the lock. -/
def WpPc.passedCheck : WpPc → Bool
  | .rRead0 | .rCas0 _ | .rRead | .rCas _ | .rHold => true
  | _ => false

theorem wp_pref_step1 (pc pc' : WpPc) (gl w gl' w' : Word) (h : WpStep1 pc gl w pc' gl' w') (hw : w ≠ 0#64)
    (hp : pc.passedCheck = false) : pc'.passedCheck = false := by
  cases h with
  | rFirstFree | rWaitFree | rAgainFree => exact absurd rfl hw
  | rRead0 | rCas0Ok | rRead | rCasOk | rRelease | rCas0Fail | rCasFail => cases hp
  | _ => rfl

/-- C33: as long as some writer that has announced itself (is waiting for the lock or holds it) has not left,
no reader that had not already passed its check acquires the lock, whatever the other processes do and
however many time out. -/
theorem C33_writer_preference (n : Nat) (hn : n < 2 ^ 62) (s s' : WpState) (h : WpReach n s) (i j : Nat) (pci pcj : WpPc)
    (hi : s.pcs[i]? = some pci) (hiw : pci.isWriter = true)
    (hj : s.pcs[j]? = some pcj) (hjp : pcj.passedCheck = false)
    (hr : WpRunWith i s s') : s'.pcs[j]? ≠ some .rHold := by
  have key : WpReach n s' ∧ (∃ pci, s'.pcs[i]? = some pci ∧ pci.isWriter = true) ∧
      ∃ pcj, s'.pcs[j]? = some pcj ∧ pcj.passedCheck = false := by
    induction hr with
    | refl => exact ⟨h, ⟨pci, hi, hiw⟩, ⟨pcj, hj, hjp⟩⟩
    | step pc hrun hst h1 h2 ih =>
      obtain ⟨hreach, ⟨pci', hi', hw'⟩, pcj', hj', hp'⟩ := ih
      refine ⟨.step hreach hst, ⟨pc, h1, h2⟩, ?_⟩
      have hI := wp_inv n hn _ hreach
      cases hst with
      | mk k pck pck' gl' w' hk hstep =>
        by_cases hkj : k = j
        · subst hkj
          rw [hk] at hj'
          obtain rfl := Option.some.inj hj'
          refine ⟨pck', ?_, ?_⟩
          · have hlt : k < _ := (List.getElem?_eq_some_iff.1 hk).1
            simp only [List.getElem?_set_self hlt]
          · refine wp_pref_step1 _ _ _ _ _ _ hstep ?_ hp'
            have := countP_pos_of_getElem? WpPc.isWriter _ i _ hi' hw'
            rw [← hI.wcount] at this
            intro h0; rw [h0] at this; exact absurd this (by decide)
        · exact ⟨pcj', by simp only [List.getElem?_set_ne hkj]; exact hj', hp'⟩
  obtain ⟨_, _, pcj', hj', hp'⟩ := key
  intro hh
  rw [hh] at hj'
  obtain rfl := Option.some.inj hj'
  cases hp'

/-- C33: nothing leaks: when no writer is announced and no reader holds the lock, both words are 0. -/
theorem C33_free_again (n : Nat) (hn : n < 2 ^ 62) (s : WpState) (h : WpReach n s)
    (hidle : ∀ (j : Nat) (pc : WpPc), s.pcs[j]? = some pc → pc.isWriter = false ∧ pc ≠ .rHold) :
    s.gl = 0#64 ∧ s.w = 0#64 := by
  have hI := wp_inv n hn s h
  have hz : ∀ p : WpPc → Bool, (∀ pc, p pc = true → pc.isWriter = true ∨ pc = .rHold) → s.pcs.countP p = 0 := by
    intro p hp
    rw [List.countP_eq_zero]
    intro pc hm hc
    obtain ⟨j, hj, rfl⟩ := List.mem_iff_getElem.1 hm
    have := hidle j _ (List.getElem?_eq_getElem hj)
    rcases hp _ hc with h | h <;> simp_all
  have h1 := hz WpPc.isW (by intro pc hpc; simp [WpPc.isW] at hpc; subst hpc; exact Or.inl rfl)
  have h2 := hz WpPc.isR (by intro pc hpc; simp [WpPc.isR] at hpc; exact Or.inr hpc)
  have h3 := hz WpPc.isWriter (fun pc h => Or.inl h)
  exact ⟨by rw [word_eq_zero, hI.word, h1, h2], by rw [word_eq_zero, hI.wcount, h3]⟩

/-- A waiting writer and a reader that is kept out: the hypotheses of the preference theorem are met. -/
example : ∃ s, WpReach 3 s ∧ s.pcs = [.rHold, .wSpin, .rWait] := by
  refine ⟨_, .step (.step (.step (.step (.step (.step (.step (.step (.step .init
    (.mk _ 0 _ _ _ _ rfl (.callR _ _))) (.mk _ 0 _ _ _ _ rfl (.rFirstFree _))) (.mk _ 0 _ _ _ _ rfl (.rRead0 _ _)))
    (.mk _ 0 _ _ _ _ rfl (.rCas0Ok _ _))) (.mk _ 1 _ _ _ _ rfl (.callW _ _))) (.mk _ 1 _ _ _ _ rfl (.wEnter _ _)))
    (.mk _ 1 _ _ _ _ rfl (.firstFail _ _ (by decide)))) (.mk _ 2 _ _ _ _ rfl (.callR _ _)))
    (.mk _ 2 _ _ _ _ rfl (.rFirstBusy _ _ (by decide))), rfl⟩

end WG
