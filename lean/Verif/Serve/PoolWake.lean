import Verif.Serve.PoolProps

/-!
# The server: no connection waits while all threads sleep (C79)
-/
namespace WG.Serve.Pool

/-- How many of the threads 0, ..., n-1 are at places with `p`. -/
def howMany (p : WPc → Bool) (pc : Nat → WPc) : Nat → Nat
  | 0 => 0
  | n + 1 => howMany p pc n + if p (pc n) then 1 else 0

theorem howMany_upd (p : WPc → Bool) (pc : Nat → WPc) (i : Nat) (x : WPc) (n : Nat) :
    howMany p (upd pc i x) n + (if i < n ∧ p (pc i) = true then 1 else 0) = howMany p pc n + if i < n ∧ p x = true then 1 else 0 := by
  induction n with
  | zero => simp [howMany]
  | succ n ih =>
    simp only [howMany, upd]
    by_cases h : n = i
    · subst h
      simp only [Nat.lt_irrefl, false_and, if_false, if_true, Nat.lt_succ_self, true_and] at ih ⊢
      omega
    · have : i < n + 1 ↔ i < n := by omega
      simp only [this, if_neg h]
      omega

/-- Places from which a thread takes a connection if there is one, without any other thread. -/
def WPc.eager : WPc → Bool
  | .woken | .test | .take | .read _ | .headed _ => true
  | _ => false

theorem howMany_zero (p : WPc → Bool) (pc : Nat → WPc) (n : Nat) (h : ∀ i, i < n → p (pc i) = false) : howMany p pc n = 0 := by
  induction n with
  | zero => rfl
  | succ n ih => rw [howMany, ih (fun i hi => h i (by omega)), h n (by omega)]; rfl

theorem howMany_congr (p q : WPc → Bool) (pc : Nat → WPc) (n : Nat) (h : ∀ i, i < n → p (pc i) = q (pc i)) : howMany p pc n = howMany q pc n := by
  induction n with
  | zero => rfl
  | succ n ih => rw [howMany, howMany, ih (fun i hi => h i (by omega)), h n (by omega)]

theorem awake {n size : Nat} (h0 : 0 < size) {s : St} (h : Reach n size s) :
    (∃ i, i < n ∧ s.pc i = .sleep) → s.count ≤ howMany WPc.eager s.pc n + if s.acc = .signal then 1 else 0 := by
  induction h with
  | init => rintro ⟨i, _, h⟩; cases h
  | step hr hs ih =>
    have R := ring h0 hr
    rintro ⟨j, hj, hsl⟩
    cases hs with
    | accept c h => simp only [h] at ih; have := ih ⟨j, hj, hsl⟩; simp at this ⊢; omega
    | lock c h => simp only [h] at ih; have := ih ⟨j, hj, hsl⟩; simp at this ⊢; omega
    | full c h => simp only [h] at ih; have := ih ⟨j, hj, hsl⟩; simp at this ⊢; omega
    | room c h => simp only [h] at ih; have := ih ⟨j, hj, hsl⟩; simp at this ⊢; omega
    | write c h => simp only [h] at ih; have := ih ⟨j, hj, hsl⟩; simp at this ⊢; omega
    | tail c h => simp only [h] at ih; have := ih ⟨j, hj, hsl⟩; simp at this ⊢; omega
    | count c h => simp only [h] at ih; have := ih ⟨j, hj, hsl⟩; simp at this ⊢; omega
    | noSignal h hn => exact absurd hsl (hn j hj)
    | unlock h => simp only [h] at ih; have := ih ⟨j, hj, hsl⟩; simp at this ⊢; omega
    | signal i h hi hp =>
      simp only [h] at ih
      have := ih ⟨i, hi, hp⟩
      simp at this ⊢
      rename_i s1
      have u' := howMany_upd WPc.eager s1.pc i .woken n
      simp [hp, hi, WPc.eager] at u'
      omega
    | wLock i hi hp hm =>
      rename_i s1
      have u := howMany_upd WPc.eager s1.pc i .test n
      simp [hp, hi, WPc.eager] at u
      have hji : j ≠ i := by rintro rfl; simp [upd] at hsl
      have := ih ⟨j, hj, by simpa [upd, hji] using hsl⟩
      simp only
      omega
    | wSleep i hi hp hc => simp only [hc]; omega
    | wSpurious i hi hp =>
      rename_i s1
      have u := howMany_upd WPc.eager s1.pc i .woken n
      simp [hp, hi, WPc.eager] at u
      have := ih ⟨i, hi, hp⟩
      simp only
      omega
    | wWake i hi hp hm =>
      rename_i s1
      have u := howMany_upd WPc.eager s1.pc i .test n
      simp [hp, hi, WPc.eager] at u
      have hji : j ≠ i := by rintro rfl; simp [upd] at hsl
      have := ih ⟨j, hj, by simpa [upd, hji] using hsl⟩
      simp only
      omega
    | wTake i hi hp hc =>
      rename_i s1
      have u := howMany_upd WPc.eager s1.pc i .take n
      simp [hp, hi, WPc.eager] at u
      have hji : j ≠ i := by rintro rfl; simp [upd] at hsl
      have := ih ⟨j, hj, by simpa [upd, hji] using hsl⟩
      simp only
      omega
    | wRead i hi hp =>
      rename_i s1
      have u := howMany_upd WPc.eager s1.pc i (.read (s1.queue s1.head)) n
      simp [hp, hi, WPc.eager] at u
      have hji : j ≠ i := by rintro rfl; simp [upd] at hsl
      have := ih ⟨j, hj, by simpa [upd, hji] using hsl⟩
      simp only
      omega
    | wHead i c hi hp =>
      rename_i s1
      have u := howMany_upd WPc.eager s1.pc i (.headed c) n
      simp [hp, hi, WPc.eager] at u
      have hji : j ≠ i := by rintro rfl; simp [upd] at hsl
      have := ih ⟨j, hj, by simpa [upd, hji] using hsl⟩
      simp only
      omega
    | wCount i c hi hp =>
      rename_i s1
      have u := howMany_upd WPc.eager s1.pc i (.took c) n
      simp [hp, hi, WPc.eager] at u
      have hji : j ≠ i := by rintro rfl; simp [upd] at hsl
      have := ih ⟨j, hj, by simpa [upd, hji] using hsl⟩
      have := R.pos2 i c hi hp
      simp only
      omega
    | wUnlock i c hi hp =>
      rename_i s1
      have u := howMany_upd WPc.eager s1.pc i (.serve c) n
      simp [hp, hi, WPc.eager] at u
      have hji : j ≠ i := by rintro rfl; simp [upd] at hsl
      have := ih ⟨j, hj, by simpa [upd, hji] using hsl⟩
      simp only
      omega
    | wDone i c hi hp =>
      rename_i s1
      have u := howMany_upd WPc.eager s1.pc i .want n
      simp [hp, hi, WPc.eager] at u
      have hji : j ≠ i := by rintro rfl; simp [upd] at hsl
      have := ih ⟨j, hj, by simpa [upd, hji] using hsl⟩
      simp only
      omega

/-- C79 (order): the connections that the threads have taken are, in this order, the first of those that were put into the ring; so each is taken once, by one thread, in the order of arrival.
`count` are still in the ring, at most `size`. -/
theorem C79_order {n size : Nat} (h0 : 0 < size) {s : St} (h : Reach n size s) :
    ∃ waiting, s.arrived = s.taken.map Prod.snd ++ waiting ∧ waiting.length = s.count ∧ waiting.length ≤ size := by
  have R := ring h0 h
  refine ⟨s.arrived.drop s.taken.length, by rw [R.pre, List.take_append_drop], ?_, ?_⟩
  · rw [List.length_drop]; have := R.cnt; omega
  · rw [List.length_drop]; have := R.cnt; have := R.le; omega

/-- C79 (served): a thread serves the last connection that it has taken. -/
theorem C79_served {n size : Nat} {s : St} (h : Reach n size s) {i : Nat} {c : Conn} (hi : i < n) (hp : s.pc i = .took c ∨ s.pc i = .serve c) :
    ∃ a b, s.taken = a ++ (i, c) :: b ∧ ∀ p ∈ b, p.1 ≠ i := by
  have key : ∀ i c, i < n → (s.pc i = .took c ∨ s.pc i = .serve c) → ∃ a b, s.taken = a ++ (i, c) :: b ∧ ∀ p ∈ b, p.1 ≠ i := by
    clear hp hi i c
    induction h with
    | init => intro i c hi h; rcases h with h | h <;> cases h
    | step hr hs ih =>
      intro i c hi h
      cases hs with
      | wCount k d hk hp =>
        rename_i s1
        by_cases hik : i = k
        · subst hik
          have : c = d := by rcases h with h | h <;> simp [upd] at h; exact h.symm
          subst this
          exact ⟨s1.taken, [], rfl, by simp⟩
        · obtain ⟨a, b, e, hb⟩ := ih i c hi (by simpa [upd, hik] using h)
          refine ⟨a, b ++ [(k, d)], by simp [e], fun p hp => ?_⟩
          rcases List.mem_append.1 hp with hp | hp
          · exact hb p hp
          · rw [List.mem_singleton] at hp; subst hp; exact fun e => hik e.symm
      | wUnlock k d hk hp =>
        refine ih i c hi ?_
        by_cases hik : i = k
        · subst hik
          have : c = d := by rcases h with h | h <;> simp [upd] at h; exact h.symm
          subst this
          exact Or.inl hp
        · simpa [upd, hik] using h
      | signal k _ _ _ => exact ih i c hi (by by_cases hik : i = k <;> simp_all [upd])
      | wLock k _ _ _ => exact ih i c hi (by by_cases hik : i = k <;> simp_all [upd])
      | wSleep k _ _ _ => exact ih i c hi (by by_cases hik : i = k <;> simp_all [upd])
      | wSpurious k _ _ => exact ih i c hi (by by_cases hik : i = k <;> simp_all [upd])
      | wWake k _ _ _ => exact ih i c hi (by by_cases hik : i = k <;> simp_all [upd])
      | wTake k _ _ _ => exact ih i c hi (by by_cases hik : i = k <;> simp_all [upd])
      | wRead k _ _ => exact ih i c hi (by by_cases hik : i = k <;> simp_all [upd])
      | wHead k d _ _ => exact ih i c hi (by by_cases hik : i = k <;> simp_all [upd])
      | wDone k d _ _ => exact ih i c hi (by by_cases hik : i = k <;> simp_all [upd])
      | accept => exact ih i c hi h
      | lock => exact ih i c hi h
      | full => exact ih i c hi h
      | room => exact ih i c hi h
      | write => exact ih i c hi h
      | tail => exact ih i c hi h
      | count => exact ih i c hi h
      | noSignal => exact ih i c hi h
      | unlock => exact ih i c hi h
  exact key i c hi hp

/-- C79 (alone): while the thread that accepts, or a thread of the pool, is at the ring, no other is. -/
theorem C79_exclusive {n size : Nat} {s : St} (h : Reach n size s) :
    (∀ i, i < n → s.acc.inside = true → (s.pc i).inside = false) ∧ (∀ i j, i < n → j < n → (s.pc i).inside = true → (s.pc j).inside = true → i = j) := by
  obtain ⟨h1, h2, _, _, _⟩ := own h
  constructor
  · intro i hi ha
    rw [← Bool.not_eq_true]
    intro hp
    have := h2 i hi hp
    rw [h1 ha] at this; cases this
  · intro i j hi hj hp hq
    have := h2 i hi hp
    rw [h2 j hj hq] at this
    injection this with this; injection this with this; exact this.symm

/-- C79 (no lost signal): when nobody is at the ring and a thread sleeps, then for every connection that waits there is a thread that has been woken up. -/
theorem C79_woken {n size : Nat} (h0 : 0 < size) {s : St} (h : Reach n size s) (hm : s.mutex = none) {i : Nat} (hi : i < n) (hs : s.pc i = .sleep) :
    s.count ≤ howMany (· == .woken) s.pc n := by
  have := awake h0 h ⟨i, hi, hs⟩
  obtain ⟨h1, h2, _, _, _⟩ := own h
  have ha : s.acc ≠ .signal := by intro e; have := h1 (by rw [e]; rfl); rw [hm] at this; cases this
  rw [if_neg ha, Nat.add_zero] at this
  rwa [howMany_congr WPc.eager (· == .woken)] at this
  intro k hk
  have hin : (s.pc k).inside = false := by
    rw [← Bool.not_eq_true]
    intro hp
    have := h2 k hk hp
    rw [hm] at this; cases this
  cases hp : s.pc k <;> simp_all [WPc.eager, WPc.inside]

/-- C79 (no deadlock): if a connection waits, then some thread can go on, other than by a spurious wake-up or a new connection: either all threads of the pool serve connections, or a thread
that does not serve can make a step now, or the thread that accepts, which has the mutex. -/
theorem C79_progress {n size : Nat} (h0 : 0 < size) {s : St} (h : Reach n size s) (hc : 0 < s.count) :
    (∀ i, i < n → ∃ c, s.pc i = .serve c) ∨
    (∃ i t, i < n ∧ Step n size s t ∧ t.pc i ≠ s.pc i ∧ s.pc i ≠ .sleep ∧ ∀ c, s.pc i ≠ .serve c) ∨
    (s.acc.inside = true ∧ ∃ t, Step n size s t ∧ t.acc ≠ s.acc) := by
  obtain ⟨h1, h2, h3, h4, h5⟩ := own h
  by_cases hm : s.mutex = none
  · by_cases hall : ∀ i, i < n → ∃ c, s.pc i = .serve c
    · exact Or.inl hall
    · right; left
      have hin : ∀ i, i < n → (s.pc i).inside = false := by
        intro i hi
        rw [← Bool.not_eq_true]
        intro hp
        have := h2 i hi hp
        rw [hm] at this; cases this
      have step : ∀ i, i < n → s.pc i = .want ∨ s.pc i = .woken → ∃ i t, i < n ∧ Step n size s t ∧ t.pc i ≠ s.pc i ∧ s.pc i ≠ .sleep ∧ ∀ c, s.pc i ≠ .serve c := by
        rintro i hi (hp | hp)
        · exact ⟨i, _, hi, .wLock s i hi hp hm, by simp [upd, hp], by simp [hp], by simp [hp]⟩
        · exact ⟨i, _, hi, .wWake s i hi hp hm, by simp [upd, hp], by simp [hp], by simp [hp]⟩
      by_cases hw : ∃ i, i < n ∧ (s.pc i = .want ∨ s.pc i = .woken)
      · obtain ⟨i, hi, hp⟩ := hw
        exact step i hi hp
      · exfalso
        apply hall
        intro i hi
        have hi2 := hin i hi
        have hi3 : ¬ (s.pc i = .want ∨ s.pc i = .woken) := fun hh => hw ⟨i, hi, hh⟩
        by_cases hsl : s.pc i = .sleep
        · have := C79_woken h0 h hm hi hsl
          rw [howMany_zero] at this
          · omega
          · intro k hk
            cases hp : s.pc k <;> first | rfl | exact absurd ⟨k, hk, Or.inr hp⟩ hw
        · cases hp : s.pc i <;> simp_all [WPc.inside]
  · by_cases hmain : s.acc.inside = true
    · right; right
      refine ⟨hmain, ?_⟩
      cases hp : s.acc with
      | idle => rw [hp] at hmain; cases hmain
      | have_ c => rw [hp] at hmain; cases hmain
      | test c =>
        by_cases hf : s.count = size
        · exact ⟨_, .full s c hp hf, by simp⟩
        · exact ⟨_, .room s c hp hf, by simp⟩
      | room c => exact ⟨_, .write s c hp, by simp⟩
      | wrote c => exact ⟨_, .tail s c hp, by simp⟩
      | tailed c => exact ⟨_, .count s c hp, by simp⟩
      | signal =>
        by_cases hx : ∃ i, i < n ∧ s.pc i = .sleep
        · obtain ⟨i, hi, hsl⟩ := hx
          exact ⟨_, .signal s i hp hi hsl, by simp⟩
        · exact ⟨_, .noSignal s hp (fun i hi e => hx ⟨i, hi, e⟩), by simp⟩
      | leave => exact ⟨_, .unlock s hp, by simp⟩
    · right; left
      cases ho : s.mutex with
      | none => exact absurd ho hm
      | some o =>
        cases o with
        | main => exact absurd (h4 ho) hmain
        | worker i =>
          have hi := h3 i ho
          have hin := h5 i ho
          cases hp : s.pc i with
          | test => exact ⟨i, _, hi, .wTake s i hi hp (by omega), by simp [upd, hp], by simp [hp], by simp [hp]⟩
          | take => exact ⟨i, _, hi, .wRead s i hi hp, by simp [upd, hp], by simp [hp], by simp [hp]⟩
          | read c => exact ⟨i, _, hi, .wHead s i c hi hp, by simp [upd, hp], by simp [hp], by simp [hp]⟩
          | headed c => exact ⟨i, _, hi, .wCount s i c hi hp, by simp [upd, hp], by simp [hp], by simp [hp]⟩
          | took c => exact ⟨i, _, hi, .wUnlock s i c hi hp, by simp [upd, hp], by simp [hp], by simp [hp]⟩
          | want => rw [hp] at hin; cases hin
          | sleep => rw [hp] at hin; cases hin
          | woken => rw [hp] at hin; cases hin
          | serve c => rw [hp] at hin; cases hin

/-- The connection that the thread that accepts has in hand. -/
def APc.hand : APc → List Conn
  | .have_ c | .test c | .room c | .wrote c | .tailed c => [c]
  | _ => []

/-- C79 (account): every connection that is accepted is put into the ring or dropped, once, or it is the one that the accepting thread has in hand. -/
theorem C79_account {n size : Nat} {s : St} (h : Reach n size s) : s.accepted.Perm (s.arrived ++ s.dropped ++ s.acc.hand) := by
  induction h with
  | init => exact List.Perm.refl _
  | step _ hs ih =>
    cases hs with
    | accept c h => simp only [h, APc.hand, List.append_nil] at ih ⊢; exact ih.append_right _
    | lock c h => simpa only [h, APc.hand] using ih
    | full c h => simpa only [h, APc.hand, List.append_nil, List.append_assoc] using ih
    | room c h => simpa only [h, APc.hand] using ih
    | write c h => simpa only [h, APc.hand] using ih
    | tail c h => simpa only [h, APc.hand] using ih
    | count c h =>
      simp only [h, APc.hand, List.append_nil] at ih ⊢
      refine ih.trans ?_
      rw [List.append_assoc, List.append_assoc]
      exact List.Perm.append_left _ List.perm_append_comm
    | signal i h => simpa only [h, APc.hand] using ih
    | noSignal h => simpa only [h, APc.hand] using ih
    | unlock h => simpa only [h, APc.hand] using ih
    | _ => exact ih

/-- C79 (drop): a connection is dropped only when `size` connections wait in the ring. -/
theorem C79_dropped_partial {n size : Nat} (h0 : 0 < size) {s t : St} (h : Reach n size s) (hs : Step n size s t) (hd : t.dropped ≠ s.dropped) :
    ∃ waiting, s.arrived = s.taken.map Prod.snd ++ waiting ∧ waiting.length = size := by
  obtain ⟨w, e, hw, _⟩ := C79_order h0 h
  refine ⟨w, e, ?_⟩
  rw [hw]
  cases hs with
  | full c _ hf => exact hf
  | _ => exact absurd rfl hd

end WG.Serve.Pool
