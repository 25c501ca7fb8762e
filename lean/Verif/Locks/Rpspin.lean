import Verif.Locks.Common
/-!
# Reader-preference spin lock

Model of `db_rpspin_wlock`, `db_rpspin_wulock`, `db_rpspin_rlock`, `db_rpspin_rulock` (Db/dblock.c lines
522-706) as a transition system.  One step is one atomic access of the lock word `*gl`
(`__sync_bool_compare_and_swap`, `__sync_fetch_and_add`, `__sync_fetch_and_and` or a volatile read).
Simplifications: accesses are sequentially consistent; the spin counter and the sleep are dropped, instead a
waiting process may give up (time out) at any point between two probes of the lock word; processes release
only locks they hold.
-/
namespace WG

/-- Where a process is. -/
inductive RpPc where
  /-- outside any lock call, holding nothing -/
  | idle
  /-- in wlock, before the first compare_and_swap (line 545) -/
  | wFirst
  /-- in wlock, spinning, before reading `*gl` (line 563); also where the timeout is checked (572-574) -/
  | wSpin
  /-- in wlock, `*gl` was read as 0, before the compare_and_swap (line 563) -/
  | wCas
  /-- wlock has returned 1 -/
  | wHold
  /-- in rlock, before fetch_and_add (line 640) -/
  | rEnter
  /-- in rlock, before testing WAFLAG (lines 643 and 660); also where the timeout is checked (665-670) -/
  | rSpin
  /-- rlock has returned 1 -/
  | rHold
deriving DecidableEq, Repr

/-- One atomic step of one process: program counter and lock word before and after. -/
inductive RpStep1 : RpPc → Word → RpPc → Word → Prop
  | callW (gl) : RpStep1 .idle gl .wFirst gl
  | callR (gl) : RpStep1 .idle gl .rEnter gl
  /-- line 545, `compare_and_swap(gl, 0, WAFLAG)` succeeds -/
  | firstOk : RpStep1 .wFirst 0#64 .wHold 1#64
  | firstFail (gl) : gl ≠ 0#64 → RpStep1 .wFirst gl .wSpin gl
  /-- line 563, `!(*gl)` -/
  | spinFree : RpStep1 .wSpin 0#64 .wCas 0#64
  | spinBusy (gl) : gl ≠ 0#64 → RpStep1 .wSpin gl .wSpin gl
  /-- lines 572-574, `return 0` -/
  | wTimeout (gl) : RpStep1 .wSpin gl .idle gl
  /-- line 563, `compare_and_swap(gl, 0, WAFLAG)` -/
  | casOk : RpStep1 .wCas 0#64 .wHold 1#64
  | casFail (gl) : gl ≠ 0#64 → RpStep1 .wCas gl .wSpin gl
  /-- line 606, `atomic_and(gl, ~(WAFLAG))` -/
  | wRelease (gl) : RpStep1 .wHold gl .idle (gl &&& ~~~1#64)
  /-- line 640, `fetch_and_add(gl, RC_INCR)` -/
  | rEnter (gl) : RpStep1 .rEnter gl .rSpin (gl + 2#64)
  /-- lines 643, 660 -/
  | rOk (gl) : gl &&& 1#64 = 0#64 → RpStep1 .rSpin gl .rHold gl
  | rBusy (gl) : gl &&& 1#64 ≠ 0#64 → RpStep1 .rSpin gl .rSpin gl
  /-- lines 666-670, `fetch_and_add(gl, -RC_INCR); return 0` -/
  | rTimeout (gl) : RpStep1 .rSpin gl .idle (gl - 2#64)
  /-- line 702, `fetch_and_add(gl, -RC_INCR)` -/
  | rRelease (gl) : RpStep1 .rHold gl .idle (gl - 2#64)

/-- The whole system: the lock word and all processes. -/
structure RpState where
  gl : Word
  pcs : List RpPc

/-- Some process makes a step. -/
inductive RpStep : RpState → RpState → Prop
  | mk (s i pc pc' gl') : s.pcs[i]? = some pc → RpStep1 pc s.gl pc' gl' →
      RpStep s ⟨gl', s.pcs.set i pc'⟩

/-- States reachable with `n` processes from the state after `wg_init_locks` (Db/dblock.c lines 1267-1268:
the lock word is 0). -/
inductive RpReach (n : Nat) : RpState → Prop
  | init : RpReach n ⟨0#64, List.replicate n .idle⟩
  | step {s s'} : RpReach n s → RpStep s s' → RpReach n s'

/-! ## Invariant -/

def RpPc.isW (p : RpPc) : Bool := p == .wHold
def RpPc.isR (p : RpPc) : Bool := p == .rHold
/-- counted in the lock word as a reader -/
def RpPc.isC (p : RpPc) : Bool := p == .rHold || p == .rSpin

structure RpInv (n : Nat) (s : RpState) : Prop where
  len : s.pcs.length = n
  word : s.gl.toNat = s.pcs.countP RpPc.isW + 2 * s.pcs.countP RpPc.isC
  one : s.pcs.countP RpPc.isW ≤ 1
  excl : s.pcs.countP RpPc.isW = 1 → s.pcs.countP RpPc.isR = 0

theorem rp_inv_init (n : Nat) : RpInv n ⟨0#64, List.replicate n .idle⟩ := by
  have h : ∀ p : RpPc → Bool, p .idle = false → (List.replicate n RpPc.idle).countP p = 0 := by
    intro p hp; rw [List.countP_replicate, hp]; simp
  refine ⟨by simp, ?_, ?_, ?_⟩
  · rw [h _ rfl, h _ rfl]; rfl
  · rw [h _ rfl]; omega
  · rw [h _ rfl]; omega

theorem rp_inv_step (n : Nat) (hn : n < 2 ^ 62) (s s' : RpState) (h : RpInv n s) (hs : RpStep s s') : RpInv n s' := by
  cases hs with
  | mk i pc pc' gl' hi h1 =>
    have hw := countP_set_add RpPc.isW s.pcs i pc pc' hi
    have hc := countP_set_add RpPc.isC s.pcs i pc pc' hi
    have hr := countP_set_add RpPc.isR s.pcs i pc pc' hi
    have hmono : (s.pcs.set i pc').countP RpPc.isR ≤ (s.pcs.set i pc').countP RpPc.isC :=
      List.countP_mono_left (by intro x _ hx; simp [RpPc.isR] at hx; subst hx; rfl)
    have hlen : s.pcs.countP RpPc.isC ≤ n := by rw [← h.len]; exact List.countP_le_length
    have hmem : pc ∈ s.pcs := List.mem_of_getElem? hi
    have hpos : ∀ p : RpPc → Bool, p pc = true → 0 < s.pcs.countP p := fun p hp =>
      List.countP_pos_iff.2 ⟨pc, hmem, hp⟩
    obtain ⟨_, hword, hone, hex⟩ := h
    generalize hgl : s.gl = gl at *
    suffices H : gl'.toNat = (s.pcs.set i pc').countP RpPc.isW + 2 * (s.pcs.set i pc').countP RpPc.isC ∧
        (s.pcs.set i pc').countP RpPc.isW ≤ 1 ∧
        ((s.pcs.set i pc').countP RpPc.isW = 1 → (s.pcs.set i pc').countP RpPc.isR = 0) from
      ⟨by simpa using ‹s.pcs.length = n›, H.1, H.2.1, H.2.2⟩
    have hposW := hpos RpPc.isW
    have hposC := hpos RpPc.isC
    clear hpos
    have z0 : (0#64 : Word).toNat = 0 := rfl
    have z1 : (1#64 : Word).toNat = 1 := rfl
    generalize (s.pcs.set i pc').countP RpPc.isW = w' at *
    generalize (s.pcs.set i pc').countP RpPc.isC = c' at *
    generalize (s.pcs.set i pc').countP RpPc.isR = r' at *
    generalize s.pcs.countP RpPc.isW = w at *
    generalize s.pcs.countP RpPc.isC = c at *
    generalize s.pcs.countP RpPc.isR = r at *
    cases h1 with
    | firstOk | casOk =>
      simp [RpPc.isW, RpPc.isC, RpPc.isR] at hw hc hr
      omega
    | wRelease =>
      have hp := hposW rfl
      simp only [word_andnot_one]
      simp [RpPc.isW, RpPc.isC, RpPc.isR] at hw hc hr
      omega
    | rEnter =>
      rw [word_add_two _ (by omega)]
      simp [RpPc.isW, RpPc.isC, RpPc.isR] at hw hc hr
      omega
    | rTimeout | rRelease =>
      have hp := hposC rfl
      rw [word_sub_two _ (by omega)]
      simp [RpPc.isW, RpPc.isC, RpPc.isR] at hw hc hr
      omega
    | rOk _ hf =>
      rw [word_and_one] at hf
      simp [RpPc.isW, RpPc.isC, RpPc.isR] at hw hc hr
      omega
    | _ =>
      simp [RpPc.isW, RpPc.isC, RpPc.isR] at hw hc hr
      omega

theorem rp_inv (n : Nat) (hn : n < 2 ^ 62) (s : RpState) (h : RpReach n s) : RpInv n s := by
  induction h with
  | init => exact rp_inv_init n
  | step _ h2 ih => exact rp_inv_step n hn _ _ ih h2

/-! ## Property C32 -/

/-- C32: while a process holds the write lock no other process holds the lock in either mode. -/
theorem C32_exclusive (n : Nat) (hn : n < 2 ^ 62) (s : RpState) (h : RpReach n s) (i j : Nat) (hij : i ≠ j)
    (hi : s.pcs[i]? = some .wHold) : s.pcs[j]? ≠ some .wHold ∧ s.pcs[j]? ≠ some .rHold := by
  have hI := rp_inv n hn s h
  constructor
  · intro hj
    have := countP_two RpPc.isW s.pcs i j _ _ hij hi hj rfl rfl
    have := hI.one
    omega
  · intro hj
    have h1 := countP_pos_of_getElem? RpPc.isW s.pcs i _ hi rfl
    have h2 := countP_pos_of_getElem? RpPc.isR s.pcs j _ hj rfl
    have := hI.one
    have := hI.excl (by omega)
    omega

/-- C32: nothing leaks: when no process is using the lock (whatever time outs happened before), the lock word
is 0 and a writer gets the lock at its first attempt. -/
theorem C32_free_again (n : Nat) (hn : n < 2 ^ 62) (s : RpState) (h : RpReach n s)
    (hidle : ∀ (j : Nat) (pc : RpPc), s.pcs[j]? = some pc → pc ≠ .wHold ∧ pc ≠ .rHold ∧ pc ≠ .rSpin) :
    s.gl = 0#64 ∧ (∀ i, s.pcs[i]? = some .wFirst → RpStep s ⟨1#64, s.pcs.set i .wHold⟩) := by
  have hI := rp_inv n hn s h
  have hz : ∀ p : RpPc → Bool, (∀ pc, p pc = true → pc = .wHold ∨ pc = .rHold ∨ pc = .rSpin) → s.pcs.countP p = 0 := by
    intro p hp
    rw [List.countP_eq_zero]
    intro pc hm hc
    obtain ⟨j, hj, rfl⟩ := List.mem_iff_getElem.1 hm
    have := hidle j _ (List.getElem?_eq_getElem hj)
    rcases hp _ hc with h | h | h <;> simp_all
  have h1 := hz RpPc.isW (by intro pc hpc; cases pc <;> simp_all [RpPc.isW])
  have h2 := hz RpPc.isC (by intro pc hpc; cases pc <;> simp_all [RpPc.isC])
  have h0 : s.gl = 0#64 := by rw [word_eq_zero, hI.word, h1, h2]
  refine ⟨h0, fun i hi => .mk s i _ _ _ hi ?_⟩
  rw [h0]; exact .firstOk

/-- C32: readers are admitted together: when no writer holds the lock, a waiting reader gets it in one step. -/
theorem C32_readers_share (n : Nat) (hn : n < 2 ^ 62) (s : RpState) (h : RpReach n s)
    (hw : ∀ j : Nat, s.pcs[j]? ≠ some .wHold) (i : Nat) (hi : s.pcs[i]? = some .rSpin) :
    RpStep s ⟨s.gl, s.pcs.set i .rHold⟩ := by
  have hI := rp_inv n hn s h
  refine .mk s i _ _ _ hi (.rOk _ ?_)
  rw [word_and_one, hI.word]
  have : s.pcs.countP RpPc.isW = 0 := by
    rw [List.countP_eq_zero]
    intro pc hm hc
    obtain ⟨j, hj, rfl⟩ := List.mem_iff_getElem.1 hm
    have := hw j
    rw [List.getElem?_eq_getElem hj] at this
    simp [RpPc.isW] at hc
    exact this (by rw [hc])
  omega

/-- A state with a writer holding the lock and a reader waiting is reachable. -/
example : RpReach 2 ⟨3#64, [.wHold, .rSpin]⟩ :=
  .step (s := ⟨1#64, [.wHold, .rEnter]⟩) (.step (s := ⟨1#64, [.wHold, .idle]⟩) (.step (s := ⟨0#64, [.wFirst, .idle]⟩)
    (.step (s := ⟨0#64, [.idle, .idle]⟩) .init (.mk _ 0 _ _ _ rfl (.callW _))) (.mk _ 0 _ _ _ rfl .firstOk))
    (.mk _ 1 _ _ _ rfl (.callR _))) (.mk _ 1 _ _ _ rfl (.rEnter _))

/-- Two readers holding the lock together is reachable. -/
example : RpReach 2 ⟨4#64, [.rHold, .rHold]⟩ :=
  .step (s := ⟨4#64, [.rHold, .rSpin]⟩) (.step (s := ⟨4#64, [.rSpin, .rSpin]⟩)
   (.step (s := ⟨2#64, [.rSpin, .rEnter]⟩) (.step (s := ⟨2#64, [.rSpin, .idle]⟩) (.step (s := ⟨0#64, [.rEnter, .idle]⟩)
    (.step (s := ⟨0#64, [.idle, .idle]⟩) .init (.mk _ 0 _ _ _ rfl (.callR _))) (.mk _ 0 _ _ _ rfl (.rEnter _)))
    (.mk _ 1 _ _ _ rfl (.callR _))) (.mk _ 1 _ _ _ rfl (.rEnter _)))
    (.mk _ 0 _ _ _ rfl (.rOk _ (by decide)))) (.mk _ 1 _ _ _ rfl (.rOk _ (by decide)))

end WG
