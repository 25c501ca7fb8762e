import Verif.Attach.Props
/-! # C64, C65: examples and counterexamples -/
namespace WG.Attach

def str (s : String) : Str := s.toUTF8.toList.map (fun c => BitVec.ofNat 8 c.toNat)

example : keyOf (some (str "0042abc")) = 42 := by decide +kernel
example : Digits [48#8, 52#8, 50#8] ∧ value [48#8, 52#8, 50#8] = 42 := by
  refine ⟨⟨by decide, by decide⟩, by decide⟩
example : keyOf (some (str "people")) = 1000 := by decide +kernel
example : keyOf (some (str "-5")) = 1000 := by decide +kernel
example : isSpace 112#8 = false ∧ isDigit 112#8 = false := by decide

/-- Different numbers may be the same database: 2^32 + 1000 and 1000, as only 32 bits are kept, and all numbers from 2^63 on. -/
theorem C64_counterexample :
    keyOf (some (str "4294968296")) = keyOf (some (str "1000")) ∧ keyOf (some (str "2147483647")) = keyOf (some (str "1000")) ∧
    keyOf (some (str "9223372036854775807")) = keyOf (some (str "9223372036854775808")) := by decide +kernel

/-! ## A machine without segments, and one call after the other -/

def s0 : State := ⟨fun _ => none, fun _ => Seg.new, 0, fun _ => .idle⟩
theorem s0_reach : Reach s0 := .start (fun _ => rfl) (fun _ _ h => by cases h)

/-- `wg_attach_database("7", 2000000)`. -/
def a7 : Args := args (some [55#8]) 2000000 2000000 true false
/-- `wg_attach_logged_database("7", 2000000)`. -/
def l7 : Args := args (some [55#8]) 2000000 2000000 true true
theorem a7_eq : a7 = ⟨7, 2000000, 2000000, true, false⟩ := by decide
theorem l7_eq : l7 = ⟨7, 2000000, 2000000, true, true⟩ := by decide

theorem reach_steps {s s' : State} (h : Reach s) (hs : Steps s s') : Reach s' := by
  induction hs with
  | refl => exact h
  | step _ hs ih => exact .step ih hs

theorem pack {P : State → Prop} {s : State} (h : Reach s) (hp : P s) : ∃ s, Reach s ∧ P s := ⟨s, h, hp⟩

/-- Process 1 creates database 7. -/
theorem one_done : ∃ s, Reach s ∧ s.procs 1 = .done a7 0 ∧ s.tbl 7 = some 0 ∧ s.next = 1 ∧ s.segs 0 = ⟨.ready, true, 2000000, 7, false, 0⟩ ∧
    (∀ q, q ≠ 1 → s.procs q = .idle) ∧ ∀ k, k ≠ 7 → s.tbl k = none := by
  have r1 : Reach (s0.at 1 (.start a7)) := .step s0_reach (.call (some [55#8]) 2000000 2000000 true false rfl)
  obtain ⟨s', h1, h2, h3, h4, h5, h6, h7, h8⟩ := C65_create (s := s0.at 1 (.start a7)) (at_self _ _ _) rfl (by decide) (size := 2000000) (by decide)
  refine ⟨s', reach_steps r1 h1, h2, h3, h8, h4, ?_, ?_⟩
  · intro q hq; rw [h5 q hq]; exact at_ne hq
  · intro k hk; rw [h6 k hk]; rfl

/-- Process 2 attaches to it too. -/
theorem two_done : ∃ s, Reach s ∧ s.procs 1 = .done a7 0 ∧ s.procs 2 = .done a7 0 := by
  obtain ⟨s, h1, h2, h3, h4, h5, h6, h7⟩ := one_done
  have r1 : Reach (s.at 2 (.start a7)) := .step h1 (.call (some [55#8]) 2000000 2000000 true false (h6 2 (by decide)))
  have h := C65_attach (s := s.at 2 (.start a7)) (p := 2) (a := a7) (id := 0) (at_self _ _ _) h3 (by show (s.segs 0).mark = _; rw [h5])
    (by show (s.segs 0).compat = _; rw [h5]) (by show (s.segs 0).size ≥ _; rw [h5]; decide) (fun h => absurd h (by decide)) (by show (s.segs 0).key = _; rw [h5]; decide)
  refine ⟨_, reach_steps r1 h, ?_, at_self _ _ _⟩
  rw [at_ne (by decide), at_ne (by decide)]; exact h2

/-! ## Counterexamples -/

/-- Of two processes that attach to a database that does not exist yet, one may fail although both asked for its creation: it has not found
the segment before the other has created it, and gets NULL. -/
theorem C65_race_counterexample : ∃ s, Reach s ∧ s.procs 1 = .done a7 0 ∧ s.procs 2 = .noLink a7 ∧ s.tbl 7 = some 0 ∧
    ∀ e s', Step s e s' → s'.procs 2 = .noLink a7 ∨ s'.procs 2 = .idle := by
  have r1 : Reach (s0.at 2 (.start a7)) := .step s0_reach (.call (some [55#8]) 2000000 2000000 true false rfl)
  have r2 := Reach.step r1 (.linkFail (at_self _ _ _))
  rw [if_pos (show a7.create = true by decide)] at r2
  have r3 := Reach.step r2 (.call (p := 1) (some [55#8]) 2000000 2000000 true false rfl)
  obtain ⟨s', h1, h2, h3, h4, h5, h6, h7, h8⟩ := C65_create (p := 1) (s := ((s0.at 2 (.start a7)).at 2 (.noLink a7)).at 1 (.start a7)) (at_self _ _ _)
    rfl (by decide) (size := 2000000) (by decide)
  have h9 : s'.procs 2 = .noLink a7 := by rw [h5 2 (by decide), at_ne (by decide)]; exact at_self _ _ _
  refine ⟨s', reach_steps r3 h1, h2, h9, h3, ?_⟩
  intro e t ht
  have other : ∀ {p : Nat} {c : Pc}, s'.procs p ≠ .noLink a7 → (s'.at p c).procs 2 = .noLink a7 ∨ (s'.at p c).procs 2 = .idle := by
    intro p c hp
    left; rw [at_ne (by rintro rfl; exact hp h9)]; exact h9
  have idle : ∀ {p : Nat}, (s'.at p .idle).procs 2 = .noLink a7 ∨ (s'.at p .idle).procs 2 = .idle := by
    intro p
    by_cases e : p = 2
    · subst e; right; exact at_self _ _ _
    · left; rw [at_ne (Ne.symm e)]; exact h9
  have no : ∀ {p : Nat} {a : Args}, s'.procs p = .noLink a → s'.tbl a.key = none → ∀ c, (s'.at p c).procs 2 = .noLink a7 ∨ (s'.at p c).procs 2 = .idle := by
    intro p a hp hn c
    left
    by_cases e : p = 2
    · subst e; rw [h9] at hp; injection hp with hp; subst hp
      rw [h3] at hn; cases hn
    · rw [at_ne (Ne.symm e)]; exact h9
  cases ht with
  | call name minsize size create logging hp => exact other (by rw [hp]; simp)
  | create hp ht hz => exact no hp ht _
  | createLost hp ht => exact no hp ht _
  | createFail hp => exact idle
  | delete hp => exact .inl h9
  | use hp => exact .inl h9
  | crash => exact idle
  | link hp ht => exact other (by rw [hp]; simp)
  | linkFail hp => exact other (by rw [hp]; simp)
  | linkDenied hp ht => exact other (by rw [hp]; simp)
  | check hp => exact other (by rw [hp]; simp)
  | stat hp => exact other (by rw [hp]; simp)
  | statFail hp => exact other (by rw [hp]; simp)
  | initBegin hp => exact other (by rw [hp]; simp)
  | initEnd hp => exact other (by rw [hp]; simp)
  | initFail hp => exact other (by rw [hp]; simp)
  | log hp => exact other (by rw [hp]; simp)
  | logFail hp hl => exact other (by rw [hp]; simp)
  | cleanup hp => exact other (by rw [hp]; simp)
  | cleanupFail hp => exact other (by rw [hp]; simp)
  | finish hp => exact other (by rw [hp]; simp)
  | detach hp => exact other (by rw [hp]; simp)

/-- Steps without removal of key `k`. -/
inductive StepsKeep (k : Int) : State → State → Prop
  | refl {s : State} : StepsKeep k s s
  | step {s s' s'' : State} {e : Ev} : StepsKeep k s s' → Step s' e s'' → (∀ p, e ≠ .remove p k) → StepsKeep k s s''

theorem makes_step {s s' : State} {e : Ev} (hs : Step s e s') {p id : Nat} (h : Makes (s'.procs p) id) : (∃ q, Makes (s.procs q) id) ∨ id = s.next := by
  have mv : ∀ {q : Nat} {c : Pc}, (∀ i, Makes c i → Makes (s.procs q) i ∨ i = s.next) → Makes ((s.at q c).procs p) id →
      (∃ q, Makes (s.procs q) id) ∨ id = s.next := by
    intro q c hc hm
    by_cases e : p = q
    · subst e; rw [at_self] at hm
      rcases hc id hm with hm | hm
      · exact .inl ⟨p, hm⟩
      · exact .inr hm
    · rw [at_ne e] at hm; exact .inl ⟨p, hm⟩
  have nm : ∀ {c : Pc} {q : Nat}, (∀ a i z, c ≠ .made a i z ∧ c ≠ .initing a i z) → ∀ i, Makes c i → Makes (s.procs q) i ∨ i = s.next := by
    rintro c q hc i ⟨a, z, hm | hm⟩
    · exact absurd hm (hc a i z).1
    · exact absurd hm (hc a i z).2
  cases hs with
  | create hp ht hz =>
    refine mv ?_ h
    rintro i ⟨a, z, hm | hm⟩
    · injection hm with _ hm; exact .inr hm.symm
    · cases hm
  | initBegin hp =>
    refine mv ?_ h
    rintro i ⟨a, z, hm | hm⟩
    · cases hm
    · injection hm with _ hm _; subst hm; left; rw [hp]; exact ⟨_, _, .inl rfl⟩
  | delete hp => exact .inl ⟨p, h⟩
  | use hp => exact .inl ⟨p, h⟩
  | linkFail hp => exact mv (nm (by intro a i z; split <;> simp)) h
  | check hp => exact mv (nm (by intro a i z; split <;> simp)) h
  | stat hp => exact mv (nm (by intro a i z; split <;> simp)) h
  | finish hp => exact mv (nm (by intro a i z; split <;> simp)) h
  | _ => exact mv (nm (by simp)) h

/-- A segment that nobody is initialising any more never becomes a database. -/
theorem stuck {k : Int} {s s' : State} (hr : Reach s) (hl : Linked k s) {id : Nat} (ht : s.tbl k = some id) (hn : (s.segs id).mark ≠ .ready)
    (hm : ∀ p, ¬ Makes (s.procs p) id) (hs : StepsKeep k s s') :
    Reach s' ∧ Linked k s' ∧ s'.tbl k = some id ∧ (s'.segs id).mark ≠ .ready ∧ ∀ p, ¬ Makes (s'.procs p) id := by
  induction hs with
  | refl => exact ⟨hr, hl, ht, hn, hm⟩
  | step _ hs he ih =>
    obtain ⟨h1, h2, h3, h4, h5⟩ := ih
    refine ⟨.step h1 hs, linked_step h2 hs he, ?_, ?_, ?_⟩
    · refine Classical.byContradiction fun hc => ?_
      obtain ⟨_, _, _, p, he', _⟩ := C65_removed h1 hs h3 hc
      exact he p he'
    · intro hc
      obtain ⟨p, a, z, hp, _⟩ := C65_new h1 hs h4 hc
      exact h5 p ⟨a, z, .inr hp⟩
    · intro p hc
      rcases makes_step hs hc with ⟨q, hq⟩ | hq
      · exact h5 q hq
      · have := (reach_inv h1).tbl _ _ h3; omega

/-- If the creating process dies during the initialisation, nobody can attach to or create a database of that name, ever, until somebody deletes it. -/
theorem C65_leftover_counterexample : ∃ s, Reach s ∧ (∀ p, s.procs p = .idle) ∧
    ∀ s', StepsKeep 7 s s' → ∀ p a id, a.key = 7 → s'.procs p ≠ .done a id := by
  have r1 : Reach (s0.at 1 (.start a7)) := .step s0_reach (.call (some [55#8]) 2000000 2000000 true false rfl)
  have r2 := Reach.step r1 (.linkFail (at_self _ _ _))
  rw [if_pos (show a7.create = true by decide)] at r2
  have r3 := Reach.step r2 (.create (size := 2000000) (at_self _ _ _) rfl (by decide))
  have r4 := Reach.step r3 (.initBegin (p := 1) (a := a7) (id := 0) (size := 2000000) rfl)
  have r5 := Reach.step r4 (.crash (p := 1))
  obtain ⟨v, r, hid, ht, hm⟩ := pack (P := fun v => (∀ p, v.procs p = .idle) ∧ v.tbl 7 = some 0 ∧ (v.segs 0).mark = .init) r5
    ⟨fun p => by by_cases e : p = 1 <;> simp [State.at, set, e, s0], rfl, rfl⟩
  refine ⟨v, r, hid, ?_⟩
  intro s' hs p a id hk hp
  obtain ⟨h1, h2, h3, h4, h5⟩ := stuck (k := 7) (id := 0) r (fun q b i hq => by rw [hid] at hq; cases hq) ht
    (by rw [hm]; decide) (fun q hq => by rw [hid] at hq; exact not_makes_idle hq) hs
  have := h2 p a id (by rw [hp]; rfl) hk
  rw [h3] at this; injection this with this; subst this
  exact h4 (C65_handle h1 hp).1

/-- After an import of a dump of another database into this one nobody else can attach: the file mode is looked up by the key in the header. -/
theorem C65_import_counterexample : ∃ s, Reach s ∧ s.procs 1 = .done a7 0 ∧ s.procs 2 = .checked a7 0 ∧ s.tbl 7 = some 0 ∧
    ∀ s', Step s .other s' → s'.procs 2 = .checked a7 0 ∨ s'.procs 2 = .idle := by
  obtain ⟨s, h1, h2, h3, h4, h5, h6, h7⟩ := one_done
  have r1 := Reach.step h1 (.use (key := 9) (logging := false) (data := 5) h2)
  obtain ⟨u, r1, eu, pu, tu⟩ := pack (P := fun u => u.segs 0 = ⟨.ready, true, 2000000, 9, false, 5⟩ ∧ u.procs = s.procs ∧ u.tbl = s.tbl) r1
    ⟨by refine (set_self s.segs 0 _).trans ?_; simp only [h5, set_self], rfl, rfl⟩
  have r2 := Reach.step r1 (.call (p := 2) (some [55#8]) 2000000 2000000 true false (by rw [pu]; exact h6 2 (by decide)))
  have r3 := Reach.step r2 (.link (p := 2) (at_self _ _ _) (show u.tbl a7.key = some 0 by rw [tu]; exact h3))
  have r4 := Reach.step r3 (.check (p := 2) (a := a7) (id := 0) (at_self _ _ _))
  have hacc : acceptable a7 (u.segs 0) = true := by rw [eu]; decide
  have r4' : Reach (((u.at 2 (.start a7)).at 2 (.linked a7 0)).at 2 (.checked a7 0)) := by
    have e : (if acceptable a7 (((u.at 2 (.start a7)).at 2 (.linked a7 0)).segs 0) = true then Pc.checked a7 0 else .idle) = .checked a7 0 := if_pos hacc
    rw [← e]; exact r4
  obtain ⟨v, r4, pv, tv, sv, pv1⟩ := pack (P := fun v => v.procs 2 = .checked a7 0 ∧ v.tbl = s.tbl ∧ v.segs = u.segs ∧ v.procs 1 = .done a7 0) r4'
    ⟨at_self _ _ _, by rw [← tu]; rfl, rfl, by rw [at_ne (by decide), at_ne (by decide), at_ne (by decide), pu]; exact h2⟩
  refine ⟨v, r4, pv1, pv, by rw [tv]; exact h3, ?_⟩
  intro t ht
  have other : ∀ {p : Nat} {c : Pc}, s.procs p = s.procs p → v.procs p ≠ .checked a7 0 → (v.at p c).procs 2 = .checked a7 0 ∨ (v.at p c).procs 2 = .idle := by
    intro p c _ hp
    left; rw [at_ne (by rintro rfl; exact hp pv)]; exact pv
  have idle : ∀ {p : Nat}, (v.at p .idle).procs 2 = .checked a7 0 ∨ (v.at p .idle).procs 2 = .idle := by
    intro p
    by_cases e : p = 2
    · subst e; right; exact at_self _ _ _
    · left; rw [at_ne (Ne.symm e)]; exact pv
  cases ht with
  | stat hp =>
    rename_i p a id
    by_cases e : p = 2
    · subst e
      rw [pv] at hp; injection hp with e1 e2; subst e1; subst e2
      have : statable v (v.segs 0) = false := by
        unfold statable
        rw [sv, eu, tv]
        simp only
        rw [h7 9 (by decide)]; decide
      rw [if_neg (by rw [this]; decide)]
      exact idle
    · left; rw [at_ne (Ne.symm e)]; exact pv
  | statFail hp => exact idle
  | use hp => exact .inl pv
  | crash => exact idle
  | call name minsize size create logging hp => exact other rfl (by rw [hp]; simp)
  | create hp ht hz => exact other rfl (by rw [hp]; simp)
  | createLost hp ht => exact other rfl (by rw [hp]; simp)
  | createFail hp => exact idle
  | link hp ht => exact other rfl (by rw [hp]; simp)
  | linkFail hp => exact other rfl (by rw [hp]; simp)
  | linkDenied hp ht => exact other rfl (by rw [hp]; simp)
  | check hp => exact other rfl (by rw [hp]; simp)
  | initBegin hp => exact other rfl (by rw [hp]; simp)
  | initEnd hp => exact other rfl (by rw [hp]; simp)
  | initFail hp => exact other rfl (by rw [hp]; simp)
  | log hp => exact other rfl (by rw [hp]; simp)
  | logFail hp hl => exact other rfl (by rw [hp]; simp)
  | cleanupFail hp => exact other rfl (by rw [hp]; simp)
  | finish hp => exact other rfl (by rw [hp]; simp)
  | detach hp => exact other rfl (by rw [hp]; simp)

/-- Another process may have a handle of a new database, and change it, before the process that creates it with a journal has started the journal:
these changes are in no journal. -/
theorem C65_journal_counterexample : ∃ s, Reach s ∧ s.procs 1 = .inited l7 0 ∧ s.procs 2 = .done a7 0 ∧ (s.segs 0).logging = false ∧ (s.segs 0).data = 5 := by
  have r1 : Reach (s0.at 1 (.start l7)) := .step s0_reach (.call (some [55#8]) 2000000 2000000 true true rfl)
  have r2 := Reach.step r1 (.linkFail (at_self _ _ _))
  rw [if_pos (show l7.create = true by decide)] at r2
  have r3 := Reach.step r2 (.create (size := 2000000) (at_self _ _ _) rfl (by decide))
  have r4 := Reach.step r3 (.initBegin (p := 1) (a := l7) (id := 0) (size := 2000000) rfl)
  have r5 := Reach.step r4 (.initEnd (p := 1) (a := l7) (id := 0) (size := 2000000) rfl)
  have r6 := Reach.step r5 (.call (p := 2) (some [55#8]) 2000000 2000000 true false rfl)
  have h := C65_attach (p := 2) (a := a7) (id := 0) (at_self _ 2 (.start a7)) rfl (congrArg Seg.mark (set_self _ 0 _)) rfl (by decide) (by decide) rfl
    |> reach_steps r6
  have r7 := Reach.step h (.use (key := 7) (logging := false) (data := 5) (at_self _ 2 (.done a7 0)))
  exact ⟨_, r7, rfl, rfl, rfl, rfl⟩

/-- When its initialisation fails, a process removes the database of that name, also if by then it is another one, that works. -/
theorem C65_cleanup_counterexample : ∃ s s', Reach s ∧ s.procs 3 = .done a7 1 ∧ s.tbl 7 = some 1 ∧ (∃ a, s.procs 1 = .cleanup a) ∧
    Step s (.remove 1 7) s' ∧ s'.tbl 7 = none := by
  have r1 : Reach (s0.at 1 (.start a7)) := .step s0_reach (.call (some [55#8]) 2000000 2000000 true false rfl)
  have r2 := Reach.step r1 (.linkFail (at_self _ _ _))
  rw [if_pos (show a7.create = true by decide)] at r2
  have r3 := Reach.step r2 (.create (size := 2000000) (at_self _ _ _) rfl (by decide))
  have r4 := Reach.step r3 (.initBegin (p := 1) (a := a7) (id := 0) (size := 2000000) rfl)
  have r5 := Reach.step r4 (.initFail (p := 1) (d := 3) (a := a7) (id := 0) (size := 2000000) rfl)
  have r6 := Reach.step r5 (.delete (p := 2) (k := 7) (.inl rfl))
  have r7 := Reach.step r6 (.call (p := 3) (some [55#8]) 2000000 2000000 true false rfl)
  obtain ⟨v, r, e1, e2, e3, e4⟩ := pack (P := fun v => v.procs 3 = .start a7 ∧ v.tbl 7 = none ∧ v.next = 1 ∧ v.procs 1 = .cleanup a7) r7 ⟨rfl, rfl, rfl, rfl⟩
  obtain ⟨s', h1, h2, h3, h4, h5, h6, h7, h8⟩ := C65_create e1 (show v.tbl a7.key = none from e2) (by decide) (size := 2000000) (by decide)
  rw [e3] at h2 h3
  have h1 := reach_steps r h1
  have hc : s'.procs 1 = .cleanup a7 := (h5 1 (by decide)).trans e4
  exact ⟨s', _, h1, h2, h3, ⟨a7, hc⟩, .cleanup hc, rfl⟩

end WG.Attach
