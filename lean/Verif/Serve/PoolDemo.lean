import Verif.Serve.PoolWake

/-!
# The server: the thread pool, cases and counterexamples
-/
namespace WG.Serve.Pool

/-- Connection `c` is put into the ring while nobody is at it; no thread sleeps. -/
theorem put {n size : Nat} {s : St} (h : Reach n size s) (c : Conn) (ha : s.acc = .idle) (hm : s.mutex = none) (hc : s.count ≠ size) (hn : ∀ i, i < n → s.pc i ≠ .sleep) :
    Reach n size { s with queue := upd s.queue s.tail c, tail := next size s.tail, count := s.count + 1, accepted := s.accepted ++ [c], arrived := s.arrived ++ [c] } := by
  obtain ⟨q, hd, tl, ct, mu, ac, pc, acd, ar, dr, ta⟩ := s
  simp only at ha hm hc hn
  subst ha; subst hm
  have h := h.step (.accept _ c rfl)
  have h := h.step (.lock _ c rfl rfl)
  have h := h.step (.room _ c rfl hc)
  have h := h.step (.write _ c rfl)
  have h := h.step (.tail _ c rfl)
  have h := h.step (.count _ c rfl)
  have h := h.step (.noSignal _ rfl hn)
  exact h.step (.unlock _ rfl)

/-- A thread takes a connection out of the ring. -/
theorem get {n size : Nat} {s : St} (h : Reach n size s) (i : Nat) (hi : i < n) (hp : s.pc i = .want) (hm : s.mutex = none) (hc : s.count ≠ 0) :
    ∃ pc, pc i = .serve (s.queue s.head) ∧ (∀ j, j ≠ i → pc j = s.pc j) ∧
      Reach n size { s with head := next size s.head, count := s.count - 1, pc := pc, taken := s.taken ++ [(i, s.queue s.head)] } := by
  obtain ⟨q, hd, tl, ct, mu, ac, pc, acd, ar, dr, ta⟩ := s
  simp only at hp hm hc
  subst hm
  have h := h.step (.wLock _ i hi hp rfl)
  have h := h.step (.wTake _ i hi (by simp [upd]) hc)
  have h := h.step (.wRead _ i hi (by simp [upd]))
  have h := h.step (.wHead _ i (q hd) hi (by simp [upd]))
  have h := h.step (.wCount _ i (q hd) hi (by simp [upd]))
  have h := h.step (.wUnlock _ i (q hd) hi (by simp [upd]))
  exact ⟨_, by simp [upd], fun j hj => by simp [upd, hj], h⟩

/-- Two threads and a ring of two places: connections 7 and 9 arrive, thread 1 takes 7, thread 0 takes 9. -/
theorem demo_pool : ∃ s, Reach 2 2 s ∧ s.arrived = [7, 9] ∧ s.taken = [(1, 7), (0, 9)] ∧ s.pc 1 = .serve 7 ∧ s.pc 0 = .serve 9 ∧ s.count = 0 := by
  have h := put (n := 2) (size := 2) Reach.init 7 rfl rfl (by decide) (by simp [init])
  have h := put h 9 rfl rfl (by decide) (by simp [init])
  obtain ⟨p1, a1, b1, h⟩ := get h 1 (by decide) rfl rfl (by decide)
  obtain ⟨p2, a2, b2, h⟩ := get h 0 (by decide) ((b1 0 (by decide)).trans rfl) rfl (show (1:Nat) ≠ 0 by decide)
  exact ⟨_, h, rfl, rfl, (b2 1 (by decide)).trans a1, a2, rfl⟩

/-- A thread sleeps, a connection arrives and wakes it up: a case for `C79_woken` with another thread that still sleeps. -/
theorem demo_woken : ∃ s, Reach 2 2 s ∧ s.mutex = none ∧ s.pc 1 = .sleep ∧ s.pc 0 = .woken ∧ s.count = 1 := by
  have h := (Reach.init (n := 2) (size := 2)).step (.wLock _ 0 (by decide) rfl rfl)
  have h := h.step (.wSleep _ 0 (by decide) (by simp [upd]) rfl)
  have h := h.step (.wLock _ 1 (by decide) (by simp [upd, init]) rfl)
  have h := h.step (.wSleep _ 1 (by decide) (by simp [upd]) rfl)
  have h := h.step (.accept _ 7 rfl)
  have h := h.step (.lock _ 7 rfl rfl)
  have h := h.step (.room _ 7 rfl (by decide))
  have h := h.step (.write _ 7 rfl)
  have h := h.step (.tail _ 7 rfl)
  have h := h.step (.count _ 7 rfl)
  have h := h.step (.signal _ 0 rfl (by decide) (by simp [upd]))
  have h := h.step (.unlock _ rfl)
  exact ⟨_, h, rfl, by simp [upd], by simp [upd], rfl⟩

/-- A connection that arrives while the ring is full is dropped: nobody serves it, and nobody closes it. -/
theorem C79_full_counterexample : ∃ s, Reach 1 1 s ∧ s.accepted = [7, 9] ∧ s.arrived = [7] ∧ s.dropped = [9] ∧ s.acc = .idle := by
  have h := put (n := 1) (size := 1) Reach.init 7 rfl rfl (by decide) (by simp [init])
  have h := h.step (.accept _ 9 rfl)
  have h := h.step (.lock _ 9 rfl rfl)
  have h := h.step (.full _ 9 rfl rfl)
  have h := h.step (.unlock _ rfl)
  exact ⟨_, h, rfl, rfl, rfl, rfl⟩

end WG.Serve.Pool
