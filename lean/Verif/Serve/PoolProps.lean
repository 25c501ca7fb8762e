import Verif.Serve.Pool

/-!
# The server: the thread pool serves every connection once, in order (C79)
-/
namespace WG.Serve.Pool

/-- The thread that accepts is between lock and unlock. -/
def APc.inside : APc → Bool
  | .idle | .have_ _ => false
  | _ => true

/-- The thread of the pool is between lock and unlock. -/
def WPc.inside : WPc → Bool
  | .test | .take | .read _ | .headed _ | .took _ => true
  | _ => false

/-- The mutex has the owner that is inside. -/
structure Own (n : Nat) (s : St) : Prop where
  main : s.acc.inside = true → s.mutex = some .main
  worker : ∀ i, i < n → (s.pc i).inside = true → s.mutex = some (.worker i)
  only : ∀ i, s.mutex = some (.worker i) → i < n
  isMain : s.mutex = some .main → s.acc.inside = true
  isWorker : ∀ i, s.mutex = some (.worker i) → (s.pc i).inside = true

theorem own {n size : Nat} {s : St} (h : Reach n size s) : Own n s := by
  induction h with
  | init => exact ⟨by simp [init, APc.inside], by simp [init, WPc.inside], by simp [init], by simp [init], by simp [init]⟩
  | step _ hs ih =>
    obtain ⟨h1, h2, h3, h4, h5⟩ := ih
    cases hs <;> refine ⟨?_, ?_, ?_, ?_, ?_⟩ <;> simp only [upd] <;> grind [APc.inside, WPc.inside]

theorem next_mod {size : Nat} (h : 0 < size) (k : Nat) : next size (k % size) = (k + 1) % size := by
  have h1 := Nat.mod_lt k h
  have h2 : (k + 1) % size = (k % size + 1) % size := by rw [Nat.add_mod, Nat.add_mod (k % size)]; simp
  unfold next
  rw [h2]
  by_cases h3 : k % size + 1 = size
  · rw [if_pos h3, h3, Nat.mod_self]
  · rw [if_neg h3, Nat.mod_eq_of_lt (show k % size + 1 < size by omega)]

theorem slot_ne {size j a : Nat} (h1 : j < a) (h2 : a < j + size) : j % size ≠ a % size := by
  intro h
  have e1 := Nat.div_add_mod j size
  have e2 := Nat.div_add_mod a size
  rw [h] at e1
  have : size * (j / size) < size * (a / size) := by omega
  have hq : j / size < a / size := Nat.lt_of_mul_lt_mul_left this
  have : size * (j / size + 1) ≤ size * (a / size) := Nat.mul_le_mul_left _ hq
  rw [Nat.mul_add, Nat.mul_one] at this
  omega

/-- What is in the ring, whatever the threads do. -/
structure Ring (n size : Nat) (s : St) : Prop where
  cnt : s.taken.length + s.count = s.arrived.length
  le : s.count ≤ size
  lt : ∀ c, s.acc = .room c ∨ s.acc = .wrote c ∨ s.acc = .tailed c → s.count < size
  tl : (∀ c, s.acc ≠ .tailed c) → s.tail = s.arrived.length % size
  tl1 : ∀ c, s.acc = .tailed c → s.tail = (s.arrived.length + 1) % size
  hd : (∀ i c, i < n → s.pc i ≠ .headed c) → s.head = s.taken.length % size
  hd1 : ∀ i c, i < n → s.pc i = .headed c → s.head = (s.taken.length + 1) % size
  slots : ∀ j, s.taken.length ≤ j → j < s.arrived.length → s.arrived[j]? = some (s.queue (j % size))
  wr : ∀ c, s.acc = .wrote c ∨ s.acc = .tailed c → s.queue (s.arrived.length % size) = c
  rd : ∀ i c, i < n → s.pc i = .read c ∨ s.pc i = .headed c → s.arrived[s.taken.length]? = some c
  pos : ∀ i, i < n → s.pc i = .take → 0 < s.count
  pos1 : ∀ i c, i < n → s.pc i = .read c → 0 < s.count
  pos2 : ∀ i c, i < n → s.pc i = .headed c → 0 < s.count
  pre : s.taken.map Prod.snd = s.arrived.take s.taken.length

theorem take_next {α : Type} (l : List α) (k : Nat) (c : α) (h : l[k]? = some c) : l.take (k + 1) = l.take k ++ [c] := by
  rw [List.take_add_one, h]; rfl

set_option maxHeartbeats 4000000 in
theorem ring {n size : Nat} (h0 : 0 < size) {s : St} (h : Reach n size s) : Ring n size s := by
  induction h with
  | init => refine ⟨?_, ?_, ?_, ?_, ?_, ?_, ?_, ?_, ?_, ?_, ?_, ?_, ?_, ?_⟩ <;> simp [init]
  | step hr hs ih =>
    obtain ⟨o1, o2, o3, _, _⟩ := own hr
    obtain ⟨cnt, le, lt, tl, tl1, hd, hd1, slots, wr, rd, pos, pos1, pos2, pre⟩ := ih
    have nm := fun k => next_mod h0 k
    have sn := fun j a => @slot_ne size j a
    have tn := fun (l : List Nat) k c => take_next l k c
    cases hs <;> refine ⟨?_, ?_, ?_, ?_, ?_, ?_, ?_, ?_, ?_, ?_, ?_, ?_, ?_, ?_⟩ <;> first | assumption | (simp only [upd]; clear tn; grind [APc.inside, WPc.inside]) | (simp only [upd]; grind [APc.inside, WPc.inside])

end WG.Serve.Pool
