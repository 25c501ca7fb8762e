import Verif.Locks.TfqueueLemmas
/-!
# C34: the task-fair queue lock

The statements with suffix `_partial` are about the runs without the three kinds of steps named at `QStep`
(`strict = true`).  The two counterexamples at the end show that with those steps, which the program and the
kernel allow, exclusion and wake-up fail.
-/
namespace WG

/-- The queue node of a process in a lock call or holding the lock. -/
def QPc.node : QPc → Option (QCls × Nat)
  | .check c a | .fwait c a | .sleep c a | .timedOut c a | .woke c a | .hold c a => some (c, a)
  | .wakeHold _ a => some (.read, a)
  | .idle | .wakeIdle _ => none

/-- Past the wait. -/
def QPc.past : QPc → Bool
  | .woke _ _ | .hold _ _ | .wakeHold _ _ => true
  | _ => false

/-- The node about to be woken. -/
def QPc.wakes : QPc → Option Nat
  | .wakeIdle b | .wakeHold b _ => some b
  | _ => none

/-- Invariant of the lock and its processes. -/
structure QSInv (s : QState) (q : List Nat) : Prop where
  mem : QInv s.m q
  own : ∀ (i : Nat) (pc : QPc) (c : QCls) (a : Nat), s.pcs[i]? = some pc → pc.node = some (c, a) →
    a ∈ q ∧ (s.m.nodes a).cls = c ∧ (pc.past = true → (s.m.nodes a).waiting = false)
  inj : ∀ (i j : Nat) (pc pc' : QPc) (c c' : QCls) (a : Nat), s.pcs[i]? = some pc → s.pcs[j]? = some pc' →
    pc.node = some (c, a) → pc'.node = some (c', a) → i = j
  owned : ∀ a ∈ q, ∃ (i : Nat) (pc : QPc) (c : QCls), s.pcs[i]? = some pc ∧ pc.node = some (c, a)
  wake : ∀ (i : Nat) (c : QCls) (a : Nat), s.pcs[i]? = some (.sleep c a) → (s.m.nodes a).waiting = false →
    ∃ (j : Nat) (pc : QPc), s.pcs[j]? = some pc ∧ pc.wakes = some a

theorem getElem?_set_cases {α : Type} {l : List α} {i j : Nat} {x y z : α} (hi : l[i]? = some z)
    (h : (l.set i x)[j]? = some y) : (j = i ∧ y = x) ∨ (j ≠ i ∧ l[j]? = some y) := by
  by_cases hj : j = i
  · subst hj
    have hlt : j < l.length := (List.getElem?_eq_some_iff.1 hi).1
    rw [List.getElem?_set_self hlt] at h
    exact Or.inl ⟨rfl, (Option.some.inj h).symm⟩
  · rw [List.getElem?_set_ne (Ne.symm hj)] at h
    exact Or.inr ⟨hj, h⟩

theorem getElem?_set_same {α : Type} {l : List α} {i : Nat} {x z : α} (hi : l[i]? = some z) :
    (l.set i x)[i]? = some x := by
  have hlt : i < l.length := (List.getElem?_eq_some_iff.1 hi).1
  exact List.getElem?_set_self hlt

/-- One process moves. -/
theorem QSInv.move {s : QState} {q q' : List Nat} {m' : QMem} {i : Nat} {pc pc' : QPc} {syn : Option Nat}
    (h : QSInv s q) (hi : s.pcs[i]? = some pc) (hm : QInv m' q') (hs : SameNodes s.m m' syn)
    (hsyn : ∀ b, syn = some b → pc'.wakes = some b)
    (hwk : ∀ b, pc.wakes = some b → pc'.wakes = some b ∨ ∀ (j : Nat) (c : QCls), s.pcs[j]? ≠ some (.sleep c b))
    (hn : (pc'.node = pc.node ∧ q' = q) ∨
      (pc'.node = none ∧ ∃ c a, pc.node = some (c, a) ∧ ∀ x, x ∈ q' ↔ x ∈ q ∧ x ≠ a))
    (hpast : ∀ c a, pc'.node = some (c, a) → pc'.past = true → (m'.nodes a).waiting = false)
    (hsl : ∀ c a, pc' = .sleep c a → (m'.nodes a).waiting = true) :
    QSInv ⟨m', s.pcs.set i pc'⟩ q' := by
  have hwf : ∀ x, (s.m.nodes x).waiting = false → (m'.nodes x).waiting = false := by
    intro x hx
    rw [(hs.2 x).2.2, hx]; simp
  refine ⟨hm, ?_, ?_, ?_, ?_⟩
  · intro j p c a hj hp
    rcases getElem?_set_cases hi hj with ⟨rfl, rfl⟩ | ⟨hne, hj'⟩
    · rcases hn with ⟨h1, rfl⟩ | ⟨h1, _⟩
      · rw [h1] at hp
        have := h.own j pc c a hi hp
        refine ⟨this.1, ?_, fun h2 => hpast c a (h1.trans hp) h2⟩
        exact ((hs.2 a).1).trans this.2.1
      · rw [h1] at hp; cases hp
    · have := h.own j p c a hj' hp
      refine ⟨?_, (hs.2 a).1.trans this.2.1, fun h2 => hwf a (this.2.2 h2)⟩
      rcases hn with ⟨_, rfl⟩ | ⟨_, c0, a0, h0, h1⟩
      · exact this.1
      · rw [h1]
        refine ⟨this.1, ?_⟩
        rintro rfl
        exact hne (h.inj j i p pc c c0 a hj' hi hp h0)
  · intro j k p p' c c' a hj hk hp hp'
    rcases getElem?_set_cases hi hj with ⟨rfl, rfl⟩ | ⟨hne, hj'⟩ <;>
      rcases getElem?_set_cases hi hk with ⟨rfl, rfl⟩ | ⟨hne', hk'⟩
    · rfl
    · rcases hn with ⟨h1, _⟩ | ⟨h1, _⟩
      · exact h.inj _ _ _ _ _ _ _ hi hk' (h1 ▸ hp) hp'
      · rw [h1] at hp; cases hp
    · rcases hn with ⟨h1, _⟩ | ⟨h1, _⟩
      · exact h.inj _ _ _ _ _ _ _ hj' hi hp (h1 ▸ hp')
      · rw [h1] at hp'; cases hp'
    · exact h.inj _ _ _ _ _ _ _ hj' hk' hp hp'
  · intro a ha
    have hq : a ∈ q := by
      rcases hn with ⟨_, rfl⟩ | ⟨_, c0, a0, h0, h1⟩
      · exact ha
      · exact ((h1 a).1 ha).1
    obtain ⟨j, p, c, hj, hp⟩ := h.owned a hq
    by_cases hji : j = i
    · subst hji
      rw [hi] at hj; obtain rfl := Option.some.inj hj
      rcases hn with ⟨h1, rfl⟩ | ⟨_, c0, a0, h0, h1⟩
      · exact ⟨j, pc', c, getElem?_set_same hi, h1.trans hp⟩
      · rw [h0] at hp
        obtain ⟨-, rfl⟩ := Prod.mk.inj (Option.some.inj hp)
        exact absurd rfl ((h1 a0).1 ha).2
    · exact ⟨j, p, c, by simp only; rw [List.getElem?_set_ne (Ne.symm hji)]; exact hj, hp⟩
  · intro j c a hj hw
    rcases getElem?_set_cases hi hj with ⟨rfl, rfl⟩ | ⟨hne, hj'⟩
    · have := hsl c a rfl; simp only at hw; rw [this] at hw; cases hw
    · by_cases hsa : syn = some a
      · exact ⟨i, pc', getElem?_set_same hi, hsyn a hsa⟩
      · have hw' : (s.m.nodes a).waiting = false := by
          have := (hs.2 a).2.2; simp only at hw; rw [hw, if_neg hsa] at this; exact this.symm
        obtain ⟨k, p, hk, hp⟩ := h.wake j c a hj' hw'
        by_cases hki : k = i
        · subst hki
          rw [hi] at hk; obtain rfl := Option.some.inj hk
          rcases hwk a hp with h2 | h2
          · exact ⟨k, pc', getElem?_set_same hi, h2⟩
          · exact absurd hj' (h2 j c)
        · exact ⟨k, p, by simp only; rw [List.getElem?_set_ne (Ne.symm hki)]; exact hk, hp⟩

theorem SameNodes.refl (m : QMem) : SameNodes m m none := ⟨rfl, fun x => ⟨rfl, rfl, by simp⟩⟩

theorem mem_erase_of_nodup {q : List Nat} (h : q.Nodup) (a x : Nat) : x ∈ q.erase a ↔ x ∈ q ∧ x ≠ a := by
  rw [h.mem_erase_iff]; exact and_comm

/-- A futex_wake that reaches a sleeper: the sleeper moves first. -/
theorem QSInv.wakeStep {s : QState} {q : List Nat} {i j : Nat} {b : Nat} {c : QCls} {pc pc' : QPc}
    (h : QSInv s q) (hi : s.pcs[i]? = some pc) (hj : s.pcs[j]? = some (.sleep c b))
    (hb : (s.m.nodes b).waiting = false) (hw : pc.wakes = some b) (hn : pc'.node = pc.node)
    (hp : pc'.past = true → pc.past = true) (hs : ∀ c a, pc' ≠ .sleep c a) :
    QSInv ⟨s.m, (s.pcs.set j (.woke c b)).set i pc'⟩ q := by
  have hij : j ≠ i := by
    rintro rfl
    rw [hi] at hj
    obtain rfl := Option.some.inj hj
    cases hw
  have h1 : QSInv ⟨s.m, s.pcs.set j (.woke c b)⟩ q := by
    refine h.move hj h.mem (.refl _) (by simp) (by intro b hb; cases hb) (Or.inl ⟨rfl, rfl⟩) ?_ (by intro c a h; cases h)
    intro c' a' he _
    obtain ⟨-, rfl⟩ := Prod.mk.inj (Option.some.inj he)
    exact hb
  have hi1 : (s.pcs.set j (.woke c b))[i]? = some pc := by
    rw [List.getElem?_set_ne hij]; exact hi
  refine h1.move (s := ⟨s.m, s.pcs.set j (.woke c b)⟩) hi1 h.mem (.refl _) (by simp) ?_ (Or.inl ⟨hn, rfl⟩) ?_ ?_
  · intro b' hb'
    rw [hw] at hb'
    obtain rfl := Option.some.inj hb'
    right
    intro k c' hk
    rcases getElem?_set_cases hj hk with ⟨_, h2⟩ | ⟨hne, hk'⟩
    · cases h2
    · exact hne (h.inj k j _ _ _ _ _ hk' hj rfl rfl)
  · intro c' a' he hpa
    rw [hn] at he
    exact (h1.own i pc c' a' hi1 he).2.2 (hp hpa)
  · intro c' a' he; exact absurd he (hs c' a')

theorem QSInv.init (n k : Nat) : QSInv ⟨.init k, List.replicate n .idle⟩ [] := by
  have hid : ∀ (i : Nat) (pc : QPc), (List.replicate n QPc.idle)[i]? = some pc → pc = .idle := by
    intro i pc h
    exact List.eq_of_mem_replicate (List.mem_of_getElem? h)
  refine ⟨⟨⟨trivial, List.nodup_nil, by simp, ?_, ?_, by simp, rfl⟩, [], [], rfl, by simp, by simp, Or.inr (by simp),
    by simp, by simp, by simp⟩, ?_, ?_, by simp, ?_⟩
  · simp only [QMem.init]
    exact List.Pairwise.map _ (fun a b h => by simpa using h) List.nodup_range
  · simp [QMem.init]
  · intro i pc c a h hp
    rw [hid i pc h] at hp; cases hp
  · intro i j pc pc' c c' a h _ hp
    rw [hid i pc h] at hp; cases hp
  · intro i c a h
    have := hid i _ h; cases this

theorem QSInv.step {s s' : QState} {q : List Nat} (h : QSInv s q) (hst : QStep true s s') : ∃ q', QSInv s' q' := by
  have nodup := h.mem.1.nodup
  cases hst with
  | enqueue i c a m' hi he =>
    obtain ⟨hm, hnq, hc, _, hx, _⟩ := enqueue_spec h.mem he
    refine ⟨q ++ [a], hm, ?_, ?_, ?_, ?_⟩
    · intro j p c' a' hj hp
      rcases getElem?_set_cases hi hj with ⟨rfl, rfl⟩ | ⟨hne, hj'⟩
      · obtain ⟨rfl, rfl⟩ := Prod.mk.inj (Option.some.inj hp)
        exact ⟨by simp, hc, fun h => by cases h⟩
      · have := h.own j p c' a' hj' hp
        have hne' : a' ≠ a := by rintro rfl; exact hnq this.1
        have hxx := hx a' hne'
        exact ⟨by simp [this.1], hxx.1.trans this.2.1, fun h2 => hxx.2.2.trans (this.2.2 h2)⟩
    · intro j k p p' c1 c2 a' hj hk hp hp'
      rcases getElem?_set_cases hi hj with ⟨rfl, rfl⟩ | ⟨hne, hj'⟩ <;>
        rcases getElem?_set_cases hi hk with ⟨rfl, rfl⟩ | ⟨hne', hk'⟩
      · rfl
      · obtain ⟨rfl, rfl⟩ := Prod.mk.inj (Option.some.inj hp)
        exact absurd (h.own k p' _ _ hk' hp').1 hnq
      · obtain ⟨rfl, rfl⟩ := Prod.mk.inj (Option.some.inj hp')
        exact absurd (h.own j p _ _ hj' hp).1 hnq
      · exact h.inj _ _ _ _ _ _ _ hj' hk' hp hp'
    · intro a' ha'
      rcases List.mem_append.1 ha' with h' | h'
      · obtain ⟨j, p, c', hj, hp⟩ := h.owned a' h'
        have hji : j ≠ i := by rintro rfl; rw [hi] at hj; obtain rfl := Option.some.inj hj; cases hp
        exact ⟨j, p, c', by simp only; rw [List.getElem?_set_ne (Ne.symm hji)]; exact hj, hp⟩
      · simp at h'; subst h'
        exact ⟨i, _, c, getElem?_set_same hi, rfl⟩
    · intro j c' a' hj hw
      rcases getElem?_set_cases hi hj with ⟨rfl, h2⟩ | ⟨hne, hj'⟩
      · cases h2
      · have := (h.own j _ _ _ hj' rfl).1
        have hne' : a' ≠ a := by rintro rfl; exact hnq this
        obtain ⟨k, p, hk, hp⟩ := h.wake j c' a' hj' (((hx a' hne').2.2).symm.trans hw)
        have hki : k ≠ i := by rintro rfl; rw [hi] at hk; obtain rfl := Option.some.inj hk; cases hp
        exact ⟨k, p, by simp only; rw [List.getElem?_set_ne (Ne.symm hki)]; exact hk, hp⟩
  | granted i c a hi hw =>
    refine ⟨q, h.move hi h.mem (.refl _) (by simp) (by intro b hb; cases hb) (Or.inl ⟨rfl, rfl⟩) ?_ (by intro c a h; cases h)⟩
    intro c' a' he _
    obtain ⟨-, rfl⟩ := Prod.mk.inj (Option.some.inj he); exact hw
  | mustWait i c a hi hw =>
    exact ⟨q, h.move hi h.mem (.refl _) (by simp) (by intro b hb; cases hb) (Or.inl ⟨rfl, rfl⟩)
      (by intro c a _ h; cases h) (by intro c a h; cases h)⟩
  | goSleep i c a hi hw =>
    refine ⟨q, h.move hi h.mem (.refl _) (by simp) (by intro b hb; cases hb) (Or.inl ⟨rfl, rfl⟩)
      (by intro c a _ h; cases h) ?_⟩
    intro c' a' he; cases he; exact hw
  | wouldBlock i c a hi hw =>
    refine ⟨q, h.move hi h.mem (.refl _) (by simp) (by intro b hb; cases hb) (Or.inl ⟨rfl, rfl⟩) ?_ (by intro c a h; cases h)⟩
    intro c' a' he _
    obtain ⟨-, rfl⟩ := Prod.mk.inj (Option.some.inj he); exact hw
  | spurious i c a hs hi => cases hs
  | timesOut i c a hi =>
    exact ⟨q, h.move hi h.mem (.refl _) (by simp) (by intro b hb; cases hb) (Or.inl ⟨rfl, rfl⟩)
      (by intro c a _ h; cases h) (by intro c a h; cases h)⟩
  | timeout i c a hi hw =>
    obtain ⟨ha, hc, _⟩ := h.own i _ _ _ hi rfl
    obtain ⟨h1, h2⟩ := timeout_spec h.mem ha (hw rfl)
    exact ⟨q.erase a, h.move hi h1 h2 (by simp) (by intro b hb; cases hb)
      (Or.inr ⟨rfl, c, a, rfl, mem_erase_of_nodup nodup a⟩) (by intro c a h; cases h) (by intro c a h; cases h)⟩
  | wReturn i a hi =>
    refine ⟨q, h.move hi h.mem (.refl _) (by simp) (by intro b hb; cases hb) (Or.inl ⟨rfl, rfl⟩) ?_ (by intro c a h; cases h)⟩
    intro c' a' he _
    obtain ⟨-, rfl⟩ := Prod.mk.inj (Option.some.inj he)
    exact (h.own i _ _ _ hi rfl).2.2 rfl
  | rCascade i a hi =>
    obtain ⟨ha, hc, hw⟩ := h.own i _ _ _ hi rfl
    obtain ⟨h1, h2, h3⟩ := cascade_spec h.mem ha (hw rfl) hc
    refine ⟨q, h.move hi h1 h2 ?_ (by intro b hb; cases hb) (Or.inl ⟨?_, rfl⟩) ?_ ?_⟩
    · intro b hb; rw [hb]; rfl
    · cases (s.m.cascade a).2 <;> rfl
    · intro c' a' he _
      have : a' = a := by
        cases hcs : (s.m.cascade a).2 <;> rw [hcs] at he <;> exact (Prod.mk.inj (Option.some.inj he)).2.symm
      subst this
      rw [(h2.2 a').2.2, hw rfl]; simp
    · intro c' a' he
      cases hcs : (s.m.cascade a).2 <;> rw [hcs] at he <;> cases he
  | wUnlock i a hi =>
    obtain ⟨ha, hc, hw⟩ := h.own i _ _ _ hi rfl
    obtain ⟨h1, h2, h3⟩ := wunlock_spec h.mem ha (hw rfl) hc
    refine ⟨q.erase a, h.move hi h1 h2 ?_ (by intro b hb; cases hb)
      (Or.inr ⟨?_, _, a, rfl, mem_erase_of_nodup nodup a⟩) ?_ ?_⟩
    · intro b hb; rw [hb]; rfl
    · cases (s.m.wunlock a).2 <;> rfl
    · intro c' a' he; cases hcs : (s.m.wunlock a).2 <;> rw [hcs] at he <;> cases he
    · intro c' a' he; cases hcs : (s.m.wunlock a).2 <;> rw [hcs] at he <;> cases he
  | rUnlock i a hi =>
    obtain ⟨ha, hc, hw⟩ := h.own i _ _ _ hi rfl
    obtain ⟨h1, h2, h3⟩ := runlock_spec h.mem ha (hw rfl)
    refine ⟨q.erase a, h.move hi h1 h2 ?_ (by intro b hb; cases hb)
      (Or.inr ⟨?_, _, a, rfl, mem_erase_of_nodup nodup a⟩) ?_ ?_⟩
    · intro b hb; rw [hb]; rfl
    · cases (s.m.runlock a).2 <;> rfl
    · intro c' a' he; cases hcs : (s.m.runlock a).2 <;> rw [hcs] at he <;> cases he
    · intro c' a' he; cases hcs : (s.m.runlock a).2 <;> rw [hcs] at he <;> cases he
  | wakeIdle i j b c hi hj hw =>
    exact ⟨q, h.wakeStep hi hj (hw rfl) rfl rfl (by intro h; cases h) (by intro c a h; cases h)⟩
  | wakeHold i j b a c hi hj hw =>
    exact ⟨q, h.wakeStep hi hj (hw rfl) rfl rfl (fun _ => rfl) (by intro c a h; cases h)⟩
  | wakeIdleNone i b hi hno =>
    exact ⟨q, h.move hi h.mem (.refl _) (by simp) (fun b' hb' => by cases hb'; exact Or.inr hno) (Or.inl ⟨rfl, rfl⟩)
      (by intro c a h; cases h) (by intro c a h; cases h)⟩
  | wakeHoldNone i b a hi hno =>
    refine ⟨q, h.move hi h.mem (.refl _) (by simp) (fun b' hb' => by cases hb'; exact Or.inr hno) (Or.inl ⟨rfl, rfl⟩)
      ?_ (by intro c a h; cases h)⟩
    intro c' a' he _
    obtain ⟨-, rfl⟩ := Prod.mk.inj (Option.some.inj he)
    exact (h.own i _ _ _ hi rfl).2.2 rfl

theorem QReach.inv {n k : Nat} {s : QState} (h : QReach true n k s) : ∃ q, QSInv s q := by
  induction h with
  | init => exact ⟨[], .init n k⟩
  | step _ hst ih => obtain ⟨q, hq⟩ := ih; exact hq.step hst

/-! ## Theorems -/

/-- While a process holds the exclusive lock, no other process holds the lock in either mode. -/
theorem C34_exclusive_partial {n k : Nat} {s : QState} (h : QReach true n k s) {i j : Nat} {c : QCls} {a b : Nat}
    (hi : s.pcs[i]? = some (.hold .write a)) (hj : s.pcs[j]? = some (.hold c b)) : i = j := by
  obtain ⟨q, hq⟩ := h.inv
  obtain ⟨ha, hca, hwa⟩ := hq.own i _ _ _ hi rfl
  obtain ⟨hb, hcb, hwb⟩ := hq.own j _ _ _ hj rfl
  obtain ⟨hl, g, w, rfl, hg⟩ := hq.mem
  have hin : ∀ x, x ∈ g ++ w → (s.m.nodes x).waiting = false → x ∈ g := by
    intro x hx hw
    rcases List.mem_append.1 hx with h1 | h1
    · exact h1
    · rw [hg.waits x h1] at hw; cases hw
  have hag := hin a ha (hwa rfl)
  have hbg := hin b hb (hwb rfl)
  rcases hg.kind with ⟨x, rfl⟩ | hk
  · simp at hag hbg
    subst hag; subst hbg
    exact hq.inj i j _ _ _ _ _ hi hj rfl rfl
  · rw [hk a hag] at hca; cases hca

/-- First come, first served: nobody holds the lock ahead of an earlier request that is still kept waiting. -/
theorem C34_fifo_partial {n k : Nat} {s : QState} (h : QReach true n k s) {i j : Nat} {pc : QPc} {c c' : QCls} {a b : Nat}
    (hi : s.pcs[i]? = some (.hold c a)) (hj : s.pcs[j]? = some pc) (hb : pc.node = some (c', b))
    (hwait : (s.m.nodes b).waiting = true) : (s.m.nodes a).tick < (s.m.nodes b).tick := by
  obtain ⟨q, hq⟩ := h.inv
  obtain ⟨ha, _, hwa⟩ := hq.own i _ _ _ hi rfl
  obtain ⟨hbq, _, _⟩ := hq.own j _ _ _ hj hb
  obtain ⟨hl, g, w, rfl, hg⟩ := hq.mem
  have hag : a ∈ g := by
    rcases List.mem_append.1 ha with h1 | h1
    · exact h1
    · have := hg.waits a h1; rw [hwa rfl] at this; cases this
  have hbw : b ∈ w := by
    rcases List.mem_append.1 hbq with h1 | h1
    · have := hg.granted b h1; rw [hwait] at this; cases this
    · exact h1
  have := hg.sorted
  rw [List.pairwise_append] at this
  exact this.2.2 a hag b hbw

/-- No lost wake-up: a process sleeping although the lock has been given to it is about to be woken. -/
theorem C34_wakeup_partial {n k : Nat} {s : QState} (h : QReach true n k s) {i : Nat} {c : QCls} {a : Nat}
    (hi : s.pcs[i]? = some (.sleep c a)) (hw : (s.m.nodes a).waiting = false) :
    ∃ (j : Nat) (b : Nat), s.pcs[j]? = some (.wakeIdle a) ∨ s.pcs[j]? = some (.wakeHold a b) := by
  obtain ⟨q, hq⟩ := h.inv
  obtain ⟨j, pc, hj, hp⟩ := hq.wake i c a hi hw
  cases pc <;> simp [QPc.wakes] at hp
  · subst hp; exact ⟨j, 0, Or.inl hj⟩
  · rename_i b a'
    subst hp; exact ⟨j, a', Or.inr hj⟩

/-- Not everybody sleeps: while a process sleeps in a lock call, another one is running in a lock or unlock call
or holds the lock. -/
theorem C34_no_deadlock_partial {n k : Nat} {s : QState} (h : QReach true n k s) {i : Nat} {c : QCls} {a : Nat}
    (hi : s.pcs[i]? = some (.sleep c a)) :
    ∃ (j : Nat) (pc : QPc), s.pcs[j]? = some pc ∧ pc ≠ .idle ∧ ∀ c' b, pc ≠ .sleep c' b := by
  obtain ⟨q, hq⟩ := h.inv
  obtain ⟨ha, _, _⟩ := hq.own i _ _ _ hi rfl
  obtain ⟨hl, g, w, hgw, hg⟩ := hq.mem
  cases g with
  | nil => rw [hgw, hg.head rfl] at ha; simp at ha
  | cons x g =>
    have hxq : x ∈ q := by rw [hgw]; simp
    have hxw := hg.granted x (by simp)
    obtain ⟨j, pc, cx, hj, hp⟩ := hq.owned x hxq
    by_cases hsl : pc = .sleep cx x
    · subst hsl
      obtain ⟨l, p, hl1, hl2⟩ := hq.wake j cx x hj hxw
      refine ⟨l, p, hl1, ?_, ?_⟩
      · rintro rfl; cases hl2
      · rintro c' b rfl; cases hl2
    · refine ⟨j, pc, hj, ?_, ?_⟩
      · rintro rfl; cases hp
      · rintro c' b rfl
        obtain ⟨rfl, rfl⟩ := Prod.mk.inj (Option.some.inj hp)
        exact hsl rfl

/-- When all have left, the lock is free: the next lock call gets it at once. -/
theorem C34_free_again_partial {n k : Nat} {s : QState} (h : QReach true n k s)
    (hidle : ∀ (i : Nat) (pc : QPc), s.pcs[i]? = some pc → pc = .idle) :
    ∀ c a m', s.m.enqueue c = some (a, m') → (m'.nodes a).waiting = false := by
  obtain ⟨q, hq⟩ := h.inv
  have hq0 : q = [] := by
    cases q with
    | nil => rfl
    | cons x r =>
      obtain ⟨j, pc, c, hj, hp⟩ := hq.owned x (by simp)
      rw [hidle j pc hj] at hp; cases hp
  subst hq0
  have ht : s.m.tail = 0 := hq.mem.1.tail
  intro c a m' he
  unfold QMem.enqueue at he
  cases hf : s.m.free with
  | nil => rw [hf] at he; cases he
  | cons a0 rest =>
    rw [hf] at he
    simp only [ht, ne_eq, not_true, if_false] at he
    obtain ⟨rfl, rfl⟩ := Prod.mk.inj (Option.some.inj he)
    simp [QMem.upd]

/-! ## Runs used as witnesses and counterexamples -/

/-- Applying a step to an explicit state. -/
theorem QReach.then {b : Bool} {n k : Nat} {s : QState} (h : QReach b n k s) {m' : QMem} {pcs' : List QPc}
    (hs : QStep b s ⟨m', pcs'⟩) : QReach b n k ⟨m', pcs'⟩ := .step h hs

/-- Memory after the listed sections. -/
inductive QOp where
  | enq (c : QCls) | wun (a : Nat) | run (a : Nat) | tmo (a : Nat)

def QMem.ops : QMem → List QOp → QMem
  | m, [] => m
  | m, .enq c :: r => (match m.enqueue c with | some (_, m') => m' | none => m).ops r
  | m, .wun a :: r => (m.wunlock a).1.ops r
  | m, .run a :: r => (m.runlock a).1.ops r
  | m, .tmo a :: r => (m.timeout a).ops r

theorem QMem.ops_append (m : QMem) (l1 l2 : List QOp) : m.ops (l1 ++ l2) = (m.ops l1).ops l2 := by
  induction l1 generalizing m with
  | nil => rfl
  | cons o r ih => cases o <;> exact ih _

/-- A writer holds the lock while a reader sleeps: the hypotheses of the theorems above occur. -/
example : QReach true 2 2 ⟨(QMem.init 2).ops [.enq .write, .enq .read], [.hold .write 1, .sleep .read 2]⟩ ∧
    (((QMem.init 2).ops [.enq .write, .enq .read]).nodes 2).waiting = true := by
  refine ⟨?_, by rfl⟩
  have h0 : QReach true 2 2 ⟨.init 2, [.idle, .idle]⟩ := .init
  have h1 := h0.then (.enqueue _ 0 .write 1 ((QMem.init 2).ops [.enq .write]) rfl rfl)
  have h2 := h1.then (.granted _ 0 .write 1 rfl rfl)
  have h3 := h2.then (.enqueue _ 1 .read 2 ((QMem.init 2).ops [.enq .write, .enq .read]) rfl rfl)
  have h4 := h3.then (.mustWait _ 1 .read 2 rfl rfl)
  exact h4.then (.goSleep _ 1 .read 2 rfl rfl)

/-- A reader that the lock was given to while asleep: the hypotheses of `C34_wakeup_partial` occur. -/
example : ∃ m, QReach true 2 2 ⟨m, [.wakeIdle 2, .sleep .read 2]⟩ ∧ (m.nodes 2).waiting = false := by
  refine ⟨(QMem.init 2).ops [.enq .write, .enq .read, .wun 1], ?_, by rfl⟩
  have h0 : QReach true 2 2 ⟨.init 2, [.idle, .idle]⟩ := .init
  have h1 := h0.then (.enqueue _ 0 .write 1 ((QMem.init 2).ops [.enq .write]) rfl rfl)
  have h2 := h1.then (.granted _ 0 .write 1 rfl rfl)
  have h3 := h2.then (.enqueue _ 1 .read 2 ((QMem.init 2).ops [.enq .write, .enq .read]) rfl rfl)
  have h4 := h3.then (.mustWait _ 1 .read 2 rfl rfl)
  have h5 := h4.then (.goSleep _ 1 .read 2 rfl rfl)
  exact h5.then (.wUnlock _ 0 1 rfl)

/-- **Exclusion can fail** without spurious wake-ups or time outs: a wake-up call still to be made for a node
that has been released and reused wakes a process that must wait (processes 2 and 3 hold the lock, both as writers). -/
theorem C34_stale_wake_counterexample :
    ∃ m, QReach false 4 4 ⟨m, [.idle, .idle, .hold .write 1, .hold .write 2]⟩ := by
  refine ⟨(QMem.init 4).ops [.enq .write, .enq .write, .wun 1, .enq .write, .wun 2, .enq .write], ?_⟩
  have h0 : QReach false 4 4 ⟨.init 4, [.idle, .idle, .idle, .idle]⟩ := .init
  have h1 := h0.then (.enqueue _ 0 .write 1 ((QMem.init 4).ops [.enq .write]) rfl rfl)
  have h2 := h1.then (.granted _ 0 .write 1 rfl rfl)
  have h3 := h2.then (.enqueue _ 1 .write 2 ((QMem.init 4).ops [.enq .write, .enq .write]) rfl rfl)
  have h4 := h3.then (.mustWait _ 1 .write 2 rfl rfl)
  -- process 0 releases: node 2 is granted, the wake-up call is still to come
  have h5 := h4.then (.wUnlock _ 0 1 rfl)
  have h6 := h5.then (.wouldBlock _ 1 .write 2 rfl rfl)
  have h7 := h6.then (.wReturn _ 1 2 rfl)
  -- process 2 enqueues (node 1), process 1 releases node 2 and grants node 1
  have h8 := h7.then (.enqueue _ 2 .write 1
    ((QMem.init 4).ops [.enq .write, .enq .write, .wun 1, .enq .write]) rfl rfl)
  have h9 := h8.then (.wUnlock _ 1 2 rfl)
  have h10 := h9.then (.granted _ 2 .write 1 rfl rfl)
  -- process 3 enqueues, getting node 2, and sleeps
  have h11 := h10.then (.enqueue _ 3 .write 2
    ((QMem.init 4).ops [.enq .write, .enq .write, .wun 1, .enq .write, .wun 2, .enq .write]) rfl rfl)
  have h12 := h11.then (.mustWait _ 3 .write 2 rfl rfl)
  have h13 := h12.then (.goSleep _ 3 .write 2 rfl rfl)
  -- process 1's wake-up for node 1 finds nobody; process 0's for node 2 wakes process 3
  have h14 := h13.then (.wakeIdle _ 0 3 2 .write rfl rfl (by simp))
  have h15 := h14.then (.wReturn _ 3 2 rfl)
  refine h15.then (.wakeIdleNone _ 1 1 rfl ?_)
  intro j c
  match j with
  | 0 | 1 | 2 | 3 => exact fun h => by cases h
  | (j + 4) => exact fun h => by cases h

/-- **A wake-up can be lost**: when a wait times out just after the lock was given to it, the next in the queue
sleeps for ever although nobody holds the lock. -/
theorem C34_timeout_counterexample :
    ∃ m, QReach false 3 3 ⟨m, [.idle, .idle, .sleep .write 3]⟩ ∧ (m.nodes 3).waiting = true ∧
      (m.nodes 3).prev = 0 := by
  refine ⟨(QMem.init 3).ops [.enq .write, .enq .write, .enq .write, .wun 1, .tmo 2], ?_, by rfl, by rfl⟩
  have h0 : QReach false 3 3 ⟨.init 3, [.idle, .idle, .idle]⟩ := .init
  have h1 := h0.then (.enqueue _ 0 .write 1 ((QMem.init 3).ops [.enq .write]) rfl rfl)
  have h2 := h1.then (.granted _ 0 .write 1 rfl rfl)
  have h3 := h2.then (.enqueue _ 1 .write 2 ((QMem.init 3).ops [.enq .write, .enq .write]) rfl rfl)
  have h4 := h3.then (.mustWait _ 1 .write 2 rfl rfl)
  have h5 := h4.then (.goSleep _ 1 .write 2 rfl rfl)
  have h6 := h5.then (.enqueue _ 2 .write 3 ((QMem.init 3).ops [.enq .write, .enq .write, .enq .write]) rfl rfl)
  have h7 := h6.then (.mustWait _ 2 .write 3 rfl rfl)
  have h8 := h7.then (.goSleep _ 2 .write 3 rfl rfl)
  have h9 := h8.then (.timesOut _ 1 .write 2 rfl)
  have h10 := h9.then (.wUnlock _ 0 1 rfl)
  have h11 := h10.then (.timeout _ 1 .write 2 rfl (by simp))
  refine h11.then (.wakeIdleNone _ 0 2 rfl ?_)
  intro j c
  match j with
  | 0 | 1 | 2 => exact fun h => by cases h
  | (j + 3) => exact fun h => by cases h

/-! ## The queue mutex -/

/-- Program counter of `lock_queue`/`unlock_queue` (lines 926-976): outside, between the test `!(*gl)` and the
compare-and-swap, or inside. -/
inductive MPc where
  | out | spin | cas | inside
deriving DecidableEq

/-- Steps of one process on the mutex word. The back-off sleep changes nothing. -/
inductive MStep1 : Bool → MPc → Bool → MPc → Prop
  /-- lines 939-940, 956: compare_and_swap(gl, 0, 1) succeeds -/
  | first : MStep1 false .out true .inside
  | firstFail : MStep1 true .out true .spin
  /-- the test of `*gl` in line 955 -/
  | test : MStep1 false .spin false .cas
  | testFail : MStep1 true .spin true .spin
  | cas : MStep1 false .cas true .inside
  | casFail : MStep1 true .cas true .spin
  /-- unlock_queue: `*gl = 0` -/
  | unlock (w : Bool) : MStep1 w .inside false .out

inductive MReach (n : Nat) : Bool → List MPc → Prop
  | init : MReach n false (List.replicate n .out)
  | step {w w' : Bool} {pcs : List MPc} {i : Nat} {pc pc' : MPc} : MReach n w pcs → pcs[i]? = some pc →
      MStep1 w pc w' pc' → MReach n w' (pcs.set i pc')

/-- At most one process is between lock_queue and unlock_queue, and the word tells whether there is one. -/
theorem C34_queue_mutex {n : Nat} {w : Bool} {pcs : List MPc} (h : MReach n w pcs) :
    (∀ i j : Nat, pcs[i]? = some .inside → pcs[j]? = some .inside → i = j) ∧
    (w = true ↔ ∃ i : Nat, pcs[i]? = some .inside) := by
  induction h with
  | init =>
    have hid : ∀ (i : Nat), (List.replicate n MPc.out)[i]? ≠ some .inside := by
      intro i h
      have := List.eq_of_mem_replicate (List.mem_of_getElem? h); cases this
    exact ⟨fun i j h => absurd h (hid i), by simp, fun ⟨i, h⟩ => absurd h (hid i)⟩
  | @step w w' pcs i pc pc' _ hi hst ih =>
    obtain ⟨h1, h2⟩ := ih
    have other : pc ≠ .inside → pc' ≠ .inside → ∀ j : Nat, (pcs.set i pc')[j]? = some .inside ↔ pcs[j]? = some .inside := by
      intro hp hp' j
      constructor
      · intro hj
        rcases getElem?_set_cases hi hj with ⟨_, h⟩ | ⟨_, h⟩
        · exact absurd h.symm hp'
        · exact h
      · intro hj
        have : j ≠ i := by rintro rfl; rw [hi] at hj; exact hp (Option.some.inj hj)
        rw [List.getElem?_set_ne (Ne.symm this)]; exact hj
    have same : pc ≠ .inside → pc' ≠ .inside → w' = w →
        (∀ i_1 j : Nat, (pcs.set i pc')[i_1]? = some .inside → (pcs.set i pc')[j]? = some .inside → i_1 = j) ∧
        (w' = true ↔ ∃ i_1 : Nat, (pcs.set i pc')[i_1]? = some .inside) := by
      intro hp hp' hw
      subst hw
      constructor
      · intro a b ha hb
        exact h1 a b ((other hp hp' a).1 ha) ((other hp hp' b).1 hb)
      · rw [h2]; exact ⟨fun ⟨a, ha⟩ => ⟨a, (other hp hp' a).2 ha⟩, fun ⟨a, ha⟩ => ⟨a, (other hp hp' a).1 ha⟩⟩
    have enter : w = false → pc' = .inside → w' = true →
        (∀ i_1 j : Nat, (pcs.set i pc')[i_1]? = some .inside → (pcs.set i pc')[j]? = some .inside → i_1 = j) ∧
        (w' = true ↔ ∃ i_1 : Nat, (pcs.set i pc')[i_1]? = some .inside) := by
      intro hw hp' hw'
      have none : ∀ j : Nat, pcs[j]? ≠ some .inside := fun j hj => by
        have := h2.2 ⟨j, hj⟩; rw [hw] at this; cases this
      constructor
      · intro a b ha hb
        rcases getElem?_set_cases hi ha with ⟨h, _⟩ | ⟨_, h⟩
        · rcases getElem?_set_cases hi hb with ⟨h', _⟩ | ⟨_, h'⟩
          · rw [h, h']
          · exact absurd h' (none b)
        · exact absurd h (none a)
      · rw [hw']
        exact ⟨fun _ => ⟨i, by rw [hp']; exact getElem?_set_same hi⟩, fun _ => rfl⟩
    cases hst with
    | first => exact enter rfl rfl rfl
    | firstFail => exact same (by simp) (by simp) rfl
    | test => exact same (by simp) (by simp) rfl
    | testFail => exact same (by simp) (by simp) rfl
    | cas => exact enter rfl rfl rfl
    | casFail => exact same (by simp) (by simp) rfl
    | unlock =>
      have none : ∀ j : Nat, (pcs.set i MPc.out)[j]? ≠ some .inside := by
        intro j hj
        rcases getElem?_set_cases hi hj with ⟨_, h⟩ | ⟨hne, h⟩
        · cases h
        · exact hne (h1 j i h hi)
      exact ⟨fun a b ha => absurd ha (none a), by simp, fun ⟨a, ha⟩ => absurd ha (none a)⟩

/-- One process inside, another spinning. -/
example : MReach 2 true [.inside, .spin] := by
  have h0 : MReach 2 false [.out, .out] := .init
  have h1 : MReach 2 true [.inside, .out] := .step (i := 0) h0 rfl .first
  exact .step (i := 1) h1 rfl .firstFail

end WG
