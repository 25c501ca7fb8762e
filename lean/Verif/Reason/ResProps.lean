import Verif.Reason.SafeRun

/-!
# C69, C71: what the reasoner proves is so, and binary resolution is safe
-/
namespace WG.Reason

theorem init_ok {cfg : Cfg} {M : Mem} {next : Nat} {cs : List Clause} (hM : Blank M next) (hc : ∀ c : Clause, c ∈ cs → c.Fine M) :
    SysOK cfg M cs (Sys.init M next cs) :=
  ⟨Cells.rfl M, hM, fun c h => ⟨hc c h, fun _ _ _ hd => hd c h⟩, fun c h => (by cases h), fun e h => (by cases h), fun e h => (by cases h)⟩

/-- **C69.** If the search ends with a proof, whatever the settings of the strategy, the hash function and the places where memory runs
out, then the clauses of the database cannot all be true: there is no interpretation in which they are. -/
theorem C69_proof (cfg : Cfg) {M : Mem} {next : Nat} (hM : Blank M next) {cs : List Clause} (hc : ∀ c : Clause, c ∈ cs → c.Fine M) {f : Nat}
    (h : run cfg f M next cs = .ok .proof) : Unsat cfg M cs := by
  rw [run] at h
  obtain ⟨⟨v, s⟩, hg, h⟩ := bind_eq_ok h
  simp only at h
  split at h
  · cases h
  · injection h with h; subst h
    exact (genloop_says f _ _ s (init_ok hM hc) rfl hg).2 rfl

/-- **C69.** Clauses that have a model are never refuted. -/
theorem C69_model (cfg : Cfg) {M : Mem} {next : Nat} (hM : Blank M next) {cs : List Clause} (hc : ∀ c : Clause, c ∈ cs → c.Fine M)
    {D : Type} {I : Interp D} (hI : I.Std cfg M) (ht : ∀ c : Clause, c ∈ cs → c.True M I) (f : Nat) : run cfg f M next cs ≠ .ok .proof :=
  fun h => C69_proof cfg hM hc h D I hI ht

/-- **C69.** However the search ends, every clause in the queue and in use follows from the clauses of the database. -/
theorem C69_kept (cfg : Cfg) {M : Mem} {next : Nat} (hM : Blank M next) {cs : List Clause} (hc : ∀ c : Clause, c ∈ cs → c.Fine M) {f : Nat}
    {v : Verdict} {s : Sys} (h : genloop cfg f (.init M next cs) = .ok (v, s)) :
    ∀ c : Clause, c ∈ s.passive ++ s.active → Follows cfg M cs s.b.mem c := by
  have := (genloop_says f _ _ s (init_ok hM hc) rfl h).1
  intro c hm
  rcases List.mem_append.1 hm with hm | hm
  · exact (this.passive c hm).2
  · exact (this.active c hm).follows

/-- **C71**, partial. Without hyperresolution, and for clauses without function terms and computed predicates: whatever the other
settings, the hash function and the places where memory runs out, the search does not read what it must not and frees nothing twice.
Missing: hyperresolution (on in the standard settings) and function terms; there the claim is false, see ResDemo. -/
theorem C71_safe_partial (cfg : Cfg) (hh : cfg.hyper = false) {M : Mem} {next : Nat} (hM : Blank M next) {cs : List Clause}
    (hc : ∀ c : Clause, c ∈ cs → c.Fine M) (hp : ∀ c : Clause, c ∈ cs → c.Plain) (f : Nat) : run cfg f M next cs ≠ .bad := by
  have S := genloop_safe (M := M) (cs := cs) hh f (Sys.init M next cs) ⟨rfl, hp, fun c h => (by cases h), fun e h => (by cases h), fun e h => (by cases h)⟩
    (init_ok (cfg := cfg) hM hc) rfl
  rw [run]
  refine (Safe.bind (Q' := fun _ => True) S fun r _ hr => ?_).1
  rw [hr.freed]
  simp only [List.not_mem_nil, or_self, if_false]
  exact safe_ok trivial

end WG.Reason
