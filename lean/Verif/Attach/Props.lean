import Verif.Attach.Lemmas
/-! # C64: database names; C65: attaching -/
namespace WG.Attach

/-! ## C64 -/

/-- The name of a database is a decimal number from 1 to 2147483646, leading zeros and text behind it are ignored. -/
theorem C64_number_partial {ds rest : Str} (h : Digits ds) (hr : ∀ c r, rest = c :: r → isDigit c = false)
    (h1 : 0 < value ds) (h2 : value ds < 2147483647) : keyOf (some (ds ++ rest)) = value ds := by
  unfold keyOf rawKey
  simp only
  rw [strtol_digits h hr (by omega), toInt_id (by omega) (by omega), if_neg (by omega)]

/-- No name, or a name that does not begin with a number, is database 1000. -/
theorem C64_default (c : BitVec 8) (r : Str) (h1 : isSpace c = false) (h2 : isDigit c = false) (h3 : c ≠ 45#8) (h4 : c ≠ 43#8) :
    keyOf none = 1000 ∧ keyOf (some []) = 1000 ∧ keyOf (some (c :: r)) = 1000 := by
  refine ⟨by decide, by decide, ?_⟩
  have : strtol (c :: r) = 0 := by
    unfold strtol
    simp only
    rw [List.dropWhile_cons, h1]
    simp only [Bool.false_eq_true, if_false]
    have e2 : sign (c :: r) = (false, c :: r) := by
      unfold sign
      dsimp only
      rw [if_neg h3, if_neg h4]
    rw [e2]
    simp only
    rw [List.takeWhile_cons, h2]
    simp only [Bool.false_eq_true, if_false]
    decide
  unfold keyOf rawKey
  simp only
  rw [this]
  decide

/-- Every name stands for a number in this range. -/
theorem C64_range (name : Option Str) : 0 < keyOf name ∧ keyOf name < 2147483647 := keyOf_range name

/-- Two decimal names stand for the same database if, and only if, they are the same number. -/
theorem C64_same_partial {ds es : Str} (h : Digits ds) (h' : Digits es) (h1 : 0 < value ds ∧ value ds < 2147483647)
    (h2 : 0 < value es ∧ value es < 2147483647) : keyOf (some ds) = keyOf (some es) ↔ value ds = value es := by
  have e1 := C64_number_partial (rest := []) h (by simp) h1.1 h1.2
  have e2 := C64_number_partial (rest := []) h' (by simp) h2.1 h2.2
  rw [List.append_nil] at e1 e2
  rw [e1, e2]; omega

/-! ## C65 -/

/-- A handle is only ever of a database that is completely initialised, that this program can read, and that is not smaller than asked for. -/
theorem C65_handle {s : State} (h : Reach s) {p : Nat} {a : Args} {id : Nat} (hp : s.procs p = .done a id) :
    (s.segs id).mark = .ready ∧ (s.segs id).compat = true ∧ (a.minsize = 0 ∨ a.minsize ≤ (s.segs id).size) := by
  have := (reach_inv h).pc p
  rw [hp] at this
  obtain ⟨_, _, h3, h4, h5⟩ := this
  exact ⟨h3, h5, h4⟩

/-- A database that is ready is never initialised again: it changes only through a handle, but for the start of its journal by the process
that created it. -/
theorem C65_kept {s s' : State} {e : Ev} (h : Reach s) (hs : Step s e s') {id : Nat} (hid : id < s.next) (hr : (s.segs id).mark = .ready) :
    s'.segs id = s.segs id ∨
    (∃ p a, s.procs p = .done a id ∧ ∃ key logging data, s'.segs id = { s.segs id with key := key, logging := logging, data := data }) ∨
    (∃ p a, s.procs p = .inited a id ∧ a.logging = true ∧ s'.segs id = { s.segs id with logging := true }) := by
  have hi := reach_inv h
  have mk : ∀ {p : Nat} {i : Nat}, Makes (s.procs p) i → id ≠ i := by
    rintro p i hm rfl
    exact (hm.not_ready (hi.pc p)).1 hr
  cases hs with
  | create hp ht hz => left; exact set_ne (by omega)
  | createLost hp ht => left; exact set_ne (by omega)
  | initBegin hp => left; exact set_ne (mk (by rw [hp]; exact ⟨_, _, .inl rfl⟩))
  | initEnd hp => left; exact set_ne (mk (by rw [hp]; exact ⟨_, _, .inr rfl⟩))
  | initFail hp => left; exact set_ne (mk (by rw [hp]; exact ⟨_, _, .inr rfl⟩))
  | log hp =>
    rename_i p a i
    by_cases e : id = i
    · subst e
      have es : ∀ g : Seg, set s.segs id g id = g := fun _ => set_self _ _ _
      have es := es { s.segs id with logging := a.logging || (s.segs id).logging }
      rcases Bool.eq_false_or_eq_true a.logging with hl | hl
      · right; right
        refine ⟨p, a, hp, hl, Eq.trans es ?_⟩
        rw [hl]; rfl
      · left
        refine Eq.trans es ?_
        rw [hl]; rfl
    · left; exact set_ne e
  | use hp =>
    rename_i p a i key logging data
    by_cases e : id = i
    · subst e; right; left; exact ⟨p, a, hp, key, logging, data, set_self _ _ _⟩
    · left; exact set_ne e
  | _ => exact .inl rfl

/-- A segment that becomes ready is an empty database of the wanted key and of one of the wanted sizes, made by a process that was asked to create one. -/
theorem C65_new {s s' : State} {e : Ev} (h : Reach s) (hs : Step s e s') {id : Nat} (hr : (s.segs id).mark ≠ .ready) (hr' : (s'.segs id).mark = .ready) :
    ∃ p a size, s.procs p = .initing a id size ∧ a.create = true ∧ size ∈ sizes a ∧ a.minsize ≤ size ∧ (s'.segs id).compat = true ∧
      (s'.segs id).key = a.key ∧ (s'.segs id).size = size ∧ (s'.segs id).logging = false ∧ (s'.segs id).data = 0 := by
  have hi := reach_inv h
  have key : ∀ {i : Nat} {g : Seg}, s'.segs = set s.segs i g → id = i ∧ g.mark = .ready ∧ s'.segs id = g := by
    intro i g hg
    by_cases e : id = i
    · subst e; rw [hg, set_self] at hr'; exact ⟨rfl, hr', by rw [hg, set_self]⟩
    · rw [hg, set_ne e] at hr'; exact absurd hr' hr
  cases hs with
  | create hp ht hz => have := (key rfl).2.1; cases this
  | createLost hp ht => have := (key rfl).2.1; cases this
  | initBegin hp => have := (key rfl).2.1; cases this
  | initEnd hp =>
    rename_i p a i size
    obtain ⟨rfl, -, he⟩ := key rfl
    have hpc := hi.pc p; rw [hp] at hpc
    obtain ⟨h1, h2, h3, h4, h5, h6, h7, h8⟩ := hpc
    refine ⟨p, a, size, hp, h7, h6, sizes_ge h1 h6, ?_⟩
    rw [he]
    exact ⟨h5, h8, h4, rfl, rfl⟩
  | initFail hp => obtain ⟨rfl, h2, he⟩ := key rfl; exact absurd h2 hr
  | log hp => obtain ⟨rfl, h2, he⟩ := key rfl; exact absurd h2 hr
  | use hp => obtain ⟨rfl, h2, he⟩ := key rfl; exact absurd h2 hr
  | _ => exact absurd hr' hr

/-- A database comes to be only by a call that was asked to create one of this key, and when there is none. -/
theorem C65_created {s s' : State} {e : Ev} (h : Reach s) (hs : Step s e s') {k : Int} {id : Nat} (hk : s'.tbl k = some id) (hk' : s.tbl k ≠ some id) :
    s.tbl k = none ∧ id = s.next ∧ ∃ p a, s.procs p = .noLink a ∧ a.create = true ∧ a.key = k := by
  have hi := reach_inv h
  have key : ∀ {p : Nat} {a : Args}, s.procs p = .noLink a → s.tbl a.key = none → s'.tbl = set s.tbl a.key (some s.next) →
      s.tbl k = none ∧ id = s.next ∧ ∃ p a, s.procs p = .noLink a ∧ a.create = true ∧ a.key = k := by
    intro p a hp ht he
    have hpc := hi.pc p; rw [hp] at hpc
    by_cases e : k = a.key
    · subst e
      rw [he, set_self] at hk
      injection hk with hk
      exact ⟨ht, hk.symm, p, a, hp, hpc.2, rfl⟩
    · rw [he, set_ne e] at hk; exact absurd hk hk'
  have gone : ∀ {k' : Int}, s'.tbl = set s.tbl k' none → False := by
    intro k' he
    by_cases e : k = k'
    · subst e; rw [he, set_self] at hk; cases hk
    · rw [he, set_ne e] at hk; exact hk' hk
  cases hs with
  | create hp ht hz => exact key hp ht rfl
  | createLost hp ht => exact key hp ht rfl
  | cleanup hp => exact (gone rfl).elim
  | delete hp => exact (gone rfl).elim
  | _ => exact absurd hk hk'

/-- A database loses its name only by `wg_delete_database`, or because the initialisation of a new database of that name failed. Its
contents remain for those that are attached. -/
theorem C65_removed {s s' : State} {e : Ev} (h : Reach s) (hs : Step s e s') {k : Int} {id : Nat} (hk : s.tbl k = some id) (hk' : s'.tbl k ≠ some id) :
    s'.tbl k = none ∧ s'.segs = s.segs ∧ (∀ q a i, s.procs q = .done a i → s'.procs q = .done a i) ∧
    ∃ p, e = .remove p k ∧ ((s.procs p = .idle ∨ ∃ a i, s.procs p = .done a i) ∨ ∃ a, s.procs p = .cleanup a ∧ a.key = k) := by
  have key : ∀ {k' : Int}, s'.tbl = set s.tbl k' none → k = k' ∧ s'.tbl k = none := by
    intro k' he
    by_cases e : k = k'
    · subst e; exact ⟨rfl, by rw [he, set_self]⟩
    · rw [he, set_ne e] at hk'; exact absurd hk hk'
  have made : ∀ {k' : Int} {v : Option Nat}, s.tbl k' = none → s'.tbl = set s.tbl k' v → False := by
    intro k' v hn he
    by_cases e : k = k'
    · subst e; rw [hn] at hk; cases hk
    · rw [he, set_ne e] at hk'; exact hk' hk
  cases hs with
  | create hp ht hz => exact (made ht rfl).elim
  | createLost hp ht => exact (made ht rfl).elim
  | cleanup hp =>
    rename_i p a
    obtain ⟨e, hn⟩ := key rfl
    refine ⟨hn, rfl, ?_, p, by rw [e], .inr ⟨a, hp, e.symm⟩⟩
    intro q b i hq
    have : q ≠ p := by rintro rfl; rw [hp] at hq; cases hq
    exact (at_ne this).trans hq
  | delete hp =>
    rename_i p k'
    obtain ⟨rfl, hn⟩ := key rfl
    exact ⟨hn, rfl, fun _ _ _ hq => hq, p, rfl, .inl hp⟩
  | _ => exact absurd hk hk'

/-- What processes know about the key table as long as key `k` is not removed. -/
def Linked (k : Int) (s : State) : Prop := ∀ p a id, (s.procs p).seg = some (a, id) → a.key = k → s.tbl k = some id

theorem linked_step {k : Int} {s s' : State} {e : Ev} (h : Linked k s) (hs : Step s e s') (he : ∀ p, e ≠ .remove p k) : Linked k s' := by
  have move : ∀ {p : Nat} {c : Pc}, (∀ a id, c.seg = some (a, id) → a.key = k → s.tbl k = some id) → Linked k (s.at p c) := by
    intro p c hc q a id hq hk
    by_cases e : q = p
    · subst e; rw [at_self] at hq; exact hc a id hq hk
    · rw [at_ne e] at hq; exact h q a id hq hk
  have same : ∀ {p : Nat} {a : Args} {id : Nat} {c : Pc}, (s.procs p).seg = some (a, id) → (c.seg = some (a, id) ∨ c.seg = none) →
      ∀ b i, c.seg = some (b, i) → b.key = k → s.tbl k = some i := by
    intro p a id c h1 h2 b i h3 h4
    rcases h2 with h2 | h2
    · rw [h2] at h3; injection h3 with h3; injection h3 with h5 h6; subst h5; subst h6; exact h p _ _ h1 h4
    · rw [h2] at h3; cases h3
  have free : ∀ {c : Pc}, c.seg = none → ∀ b i, c.seg = some (b, i) → b.key = k → s.tbl k = some i := by
    intro c h1 b i h2; rw [h1] at h2; cases h2
  have add : ∀ {p : Nat} {a : Args} {c : Pc} {sg : Nat → Seg}, s.tbl a.key = none → (c.seg = some (a, s.next) ∨ c.seg = none) →
      Linked k { s.at p c with tbl := set s.tbl a.key (some s.next), segs := sg, next := s.next + 1 } := by
    intro p a c sg ht hc q b i hq hk
    show set s.tbl a.key (some s.next) k = some i
    have hq : ((s.at p c).procs q).seg = some (b, i) := hq
    by_cases e : q = p
    · subst e; rw [at_self] at hq
      rcases hc with hc | hc
      · rw [hc] at hq; injection hq with hq; injection hq with h5 h6; subst h5; subst h6
        rw [hk, set_self]
      · rw [hc] at hq; cases hq
    · rw [at_ne e] at hq
      have := h q b i hq hk
      have hne : k ≠ a.key := by rintro rfl; rw [ht] at this; cases this
      rw [set_ne hne]; exact this
  have gone : ∀ {p : Nat} {c : Pc} {k' : Int}, c.seg = none → k' ≠ k → Linked k { s.at p c with tbl := set s.tbl k' none } := by
    intro p c k' hc hne q b i hq hk
    show set s.tbl k' none k = some i
    rw [set_ne hne.symm]
    exact move (p := p) (c := c) (free hc) q b i hq hk
  cases hs with
  | call name minsize size create logging hp => exact move (free rfl)
  | link hp ht =>
    refine move ?_
    intro b i hb hk
    injection hb with hb; injection hb with h5 h6; subst h5; subst h6
    rw [← hk]; exact ht
  | linkFail hp => exact move (free (by split <;> rfl))
  | linkDenied hp ht => exact move (free rfl)
  | check hp => exact move (same (by rw [hp]; rfl) (by split <;> simp [Pc.seg]))
  | stat hp => exact move (same (by rw [hp]; rfl) (by split <;> simp [Pc.seg]))
  | statFail hp => exact move (free rfl)
  | create hp ht hz => exact add ht (.inl rfl)
  | createLost hp ht => exact add ht (.inr rfl)
  | createFail hp => exact move (free rfl)
  | initBegin hp => exact move (c := .initing _ _ _) (same (by rw [hp]; rfl) (.inl rfl))
  | initEnd hp => exact move (c := .inited _ _) (same (by rw [hp]; rfl) (.inl rfl))
  | initFail hp => exact move (c := .cleanup _) (free rfl)
  | log hp => exact move (c := .final _ _) (same (by rw [hp]; rfl) (.inl rfl))
  | logFail hp hl => exact move (free rfl)
  | cleanup hp =>
    rename_i p a
    exact gone rfl (fun e => he p (by rw [e]))
  | cleanupFail hp => exact move (free rfl)
  | finish hp => exact move (same (by rw [hp]; rfl) (by split <;> simp [Pc.seg]))
  | delete hp =>
    rename_i p k'
    intro q b i hq hk
    show set s.tbl k' none k = some i
    rw [set_ne (fun e => he p (by rw [e]))]
    exact h q b i hq hk
  | detach hp => exact move (free rfl)
  | use hp => exact h
  | crash => exact move (free rfl)

theorem reachKeep_linked {k : Int} {s : State} (h : ReachKeep k s) : Linked k s := by
  induction h with
  | start hp ht => intro p a id hq; rw [hp p] at hq; cases hq
  | step _ hs ih => exact linked_step ih hs (by simp)
  | remove _ hk hs ih => exact linked_step ih hs (by rintro p ⟨⟩; exact hk rfl)

/-- Programs that use the same name work on the same database, as long as no database of that name is deleted. -/
theorem C65_shared {k : Int} {s : State} (h : ReachKeep k s) {p q : Nat} {a b : Args} {i j : Nat} (hp : s.procs p = .done a i) (hq : s.procs q = .done b j)
    (ha : a.key = k) (hb : b.key = k) : i = j := by
  have h1 := reachKeep_linked h p a i (by rw [hp]; rfl) ha
  have h2 := reachKeep_linked h q b j (by rw [hq]; rfl) hb
  rw [h1] at h2; injection h2

/-- Undisturbed, and if no system call fails, attaching to an existing database works and changes nothing. -/
theorem C65_attach {s : State} {p id : Nat} {a : Args} (hp : s.procs p = .start a) (ht : s.tbl a.key = some id) (hr : (s.segs id).mark = .ready)
    (hc : (s.segs id).compat = true) (hz : (s.segs id).size ≥ a.minsize) (hl : a.logging = true → (s.segs id).logging = true)
    (hk : (s.segs id).key = a.key) : Steps s (s.at p (.done a id)) := by
  have at2 : ∀ c c', (s.at p c).at p c' = s.at p c' := by
    intro c c'; unfold State.at
    have : set (set s.procs p c) p c' = set s.procs p c' := by
      funext q; by_cases e : q = p
      · subst e; rw [set_self, set_self]
      · rw [set_ne e, set_ne e, set_ne e]
    simp only [this]
  have s1 : Step s .other (s.at p (.linked a id)) := .link hp ht
  have s2 : Step (s.at p (.linked a id)) .other (s.at p (.checked a id)) := by
    have := Step.check (at_self s p (.linked a id))
    have ha : acceptable a ((s.at p (.linked a id)).segs id) = true := by
      unfold acceptable
      simp only [Bool.and_eq_true, decide_eq_true_eq, Bool.or_eq_true, Bool.not_eq_true']
      refine ⟨⟨hr, .inr hz⟩, ?_⟩
      cases hlg : a.logging with
      | false => exact .inl rfl
      | true => exact .inr (hl hlg)
    rw [if_pos ha, at2] at this
    exact this
  have s3 : Step (s.at p (.checked a id)) .other (s.at p (.final a id)) := by
    have := Step.stat (at_self s p (.checked a id))
    have ha : statable (s.at p (.checked a id)) ((s.at p (.checked a id)).segs id) = true := by
      unfold statable
      have : (s.at p (.checked a id)).tbl ((s.at p (.checked a id)).segs id).key = some id := by
        show s.tbl (s.segs id).key = some id
        rw [hk]; exact ht
      rw [this]; simp
    rw [if_pos ha, at2] at this
    exact this
  have s4 : Step (s.at p (.final a id)) .other (s.at p (.done a id)) := by
    have := Step.finish (at_self s p (.final a id))
    rw [if_pos ⟨hr, hc⟩, at2] at this
    exact this
  exact .step (.step (.step (.step .refl s1) s2) s3) s4

/-- Undisturbed, and if no system call fails, creating a database where there is none works, and gives an empty one. -/
theorem C65_create {s : State} {p : Nat} {a : Args} (hp : s.procs p = .start a) (ht : s.tbl a.key = none) (hc : a.create = true) {size : Int} (hz : size ∈ sizes a) :
    ∃ s', Steps s s' ∧ s'.procs p = .done a s.next ∧ s'.tbl a.key = some s.next ∧ s'.segs s.next = ⟨.ready, true, size, a.key, a.logging, 0⟩ ∧
      (∀ q, q ≠ p → s'.procs q = s.procs q) ∧ (∀ k, k ≠ a.key → s'.tbl k = s.tbl k) ∧ (∀ i, i ≠ s.next → s'.segs i = s.segs i) ∧
      s'.next = s.next + 1 := by
  have s1 := Step.linkFail (s := s) hp
  rw [if_pos hc] at s1
  have s2 := Step.create (at_self s p (.noLink a)) ht hz
  have s3 := Step.initBegin (set_self (s.at p (.noLink a)).procs p (.made a s.next size) : _ = _) (s := { (s.at p (.noLink a)).at p (.made a s.next size) with tbl := set s.tbl a.key (some s.next), segs := set s.segs s.next Seg.new, next := s.next + 1 })
  have s4 := Step.initEnd (p := p) (a := a) (id := s.next) (size := size) (set_self _ _ _) |> fun f => Steps.step (.step (.step (.step .refl s1) s2) s3) f
  have s5 := Step.log (p := p) (a := a) (id := s.next) (set_self _ _ _) |> fun f => Steps.step s4 f
  have s6 := Step.finish (p := p) (a := a) (id := s.next) (set_self _ _ _) |> fun f => Steps.step s5 f
  rw [if_pos (by simp only [State.at, set_self]; exact ⟨trivial, trivial⟩)] at s6
  refine ⟨_, s6, set_self _ _ _, set_self _ _ _, ?_, ?_, ?_, ?_, rfl⟩
  · simp only [State.at, set_self, Bool.or_false]
  · intro q hq
    simp only [State.at, set_ne hq]
  · intro k hk
    exact set_ne hk
  · intro i hi
    simp only [State.at, set_ne hi]

end WG.Attach
