import Verif.Reason.Halt
import Verif.Reason.Flat

/-!
# C66 – C68: unification, equality and matching, subsumption
-/
namespace WG.Reason

theorem resp_agrees {M : Mem} {θ : Nat → Tree} {s : St} : Resp M treeAlg θ s ↔ Agrees M θ s := by
  constructor
  · intro h n t hn; rw [← ev_tree]; exact h n t hn
  · intro h n t hn; rw [ev_tree]; exact h n t hn

theorem Inv.minv {M : Mem} {s : St} (I : Inv M s) : MInv M s := ⟨I.fine, I.mem, I.nodup, I.lt⟩

mutual
theorem subst_subst (μ θ : Nat → Tree) : ∀ t : Tree, (t.subst μ).subst θ = t.subst fun n => (μ n).subst θ
  | .var _ => rfl
  | .con _ => rfl
  | .app ts => by rw [Tree.subst, Tree.subst, Tree.subst, substL_substL μ θ ts]
theorem substL_substL (μ θ : Nat → Tree) : ∀ ts : List Tree, Tree.substL θ (Tree.substL μ ts) = Tree.substL (fun n => (μ n).subst θ) ts
  | [] => rfl
  | t :: ts => by rw [Tree.substL, Tree.substL, Tree.substL, subst_subst μ θ t, substL_substL μ θ ts]
end

/-- **C66.** Unification of two terms, from a state without bindings: it ends; it never reads or writes what it must not; it says yes if
and only if some substitution makes the terms the same; and if so, the bindings are a most general such substitution: there is a `μ` that
agrees with them, it makes the terms the same, and any substitution that makes the terms the same is `μ` followed by itself. Afterwards
clearing the stack clears the bindings. -/
theorem C66_unify (M : Mem) {x y : Term} (hx : Fine M x) (hy : Fine M y) :
    ∃ b s, Ends (fun f => unify M f St.clear x y) (b, s) ∧
      (∀ f, unify M f St.clear x y ≠ .bad) ∧
      (b = true ↔ ∃ θ, Unifies M θ x y) ∧
      (b = true → ∃ μ, Agrees M μ s ∧ (∀ n, s.bank n = none → μ n = .var n) ∧ Unifies M μ x y ∧
        ∀ θ, Unifies M θ x y → Agrees M θ s ∧ ∀ n, θ n = (μ n).subst θ) ∧
      s.clearStack = St.clear := by
  obtain ⟨⟨b, s⟩, hE⟩ := unify_ends (M := M) (inv_clear M) hx hy
  obtain ⟨N, hN⟩ := hE
  have P := unify_post N _ _ _ _ _ (inv_clear M) hx hy (hN N (Nat.le_refl N))
  have sound : b = true → ∀ θ, Agrees M θ s → Unifies M θ x y := by
    intro hb θ h
    have := P.sound hb Tree treeAlg θ (resp_agrees.2 h)
    rw [EqT, ev_tree, ev_tree] at this
    exact this
  have complete : ∀ θ, Unifies M θ x y → b = true ∧ Agrees M θ s := by
    intro θ h
    have := P.complete Tree treeAlg θ treeFree (fun n t h => by cases h) (by rw [EqT, ev_tree, ev_tree]; exact h)
    exact ⟨this.1, resp_agrees.1 this.2⟩
  obtain ⟨μ, hμ, hμ2⟩ := exists_resp (M := M) P.inv.wf treeAlg Tree.var
  refine ⟨b, s, ⟨N, hN⟩, fun f => unify_ne_bad f _ _ _ (inv_clear M) hx hy, ⟨fun hb => ⟨μ, sound hb μ (resp_agrees.1 hμ)⟩, ?_⟩, ?_,
    clearStack_eq P.inv.minv⟩
  · rintro ⟨θ, h⟩; exact (complete θ h).1
  · intro hb
    refine ⟨μ, resp_agrees.1 hμ, hμ2, sound hb μ (resp_agrees.1 hμ), fun θ h => ?_⟩
    have hA := (complete θ h).2
    refine ⟨hA, fun n => ?_⟩
    induction n using P.inv.wf.induction with
    | _ n ih =>
      cases hn : s.bank n with
      | none => rw [hμ2 n hn]; rfl
      | some t =>
        rw [hA n t hn, resp_agrees.1 hμ n t hn, subst_subst, ← ev_tree, ← ev_tree]
        exact ev_congr M treeAlg _ _ t fun v hv => ih v ⟨t, hn, hv⟩

/-- **C66.** The same from any state that earlier unifications have left: the bindings that are there are kept, and the answer is yes if
and only if some substitution that agrees with them makes the terms the same. -/
theorem C66_unify_further (M : Mem) {s : St} (hs : Inv M s) {x y : Term} (hx : Fine M x) (hy : Fine M y) :
    ∃ b s', Ends (fun f => unify M f s x y) (b, s') ∧
      (∀ f, unify M f s x y ≠ .bad) ∧ Inv M s' ∧
      (∀ n t, s.bank n = some t → s'.bank n = some t) ∧
      (b = true ↔ ∃ θ, Agrees M θ s ∧ Unifies M θ x y) ∧
      (b = true → ∀ θ, Agrees M θ s' ↔ Agrees M θ s ∧ Unifies M θ x y) := by
  obtain ⟨⟨b, s'⟩, N, hN⟩ := unify_ends (M := M) hs hx hy
  have P := unify_post N _ _ _ _ _ hs hx hy (hN N (Nat.le_refl N))
  have sound : b = true → ∀ θ, Agrees M θ s' → Unifies M θ x y := by
    intro hb θ h
    have := P.sound hb Tree treeAlg θ (resp_agrees.2 h)
    rw [EqT, ev_tree, ev_tree] at this
    exact this
  have complete : ∀ θ, Agrees M θ s → Unifies M θ x y → b = true ∧ Agrees M θ s' := by
    intro θ h0 h
    have := P.complete Tree treeAlg θ treeFree (resp_agrees.2 h0) (by rw [EqT, ev_tree, ev_tree]; exact h)
    exact ⟨this.1, resp_agrees.1 this.2⟩
  have keep : ∀ θ, Agrees M θ s' → Agrees M θ s := fun θ h n t hn => h n t (P.keep n t hn)
  obtain ⟨μ, hμ, _⟩ := exists_resp (M := M) P.inv.wf treeAlg Tree.var
  have hμ := resp_agrees.1 hμ
  refine ⟨b, s', ⟨N, hN⟩, fun f => unify_ne_bad f _ _ _ hs hx hy, P.inv, P.keep, ⟨fun hb => ⟨μ, keep μ hμ, sound hb μ hμ⟩, ?_⟩, ?_⟩
  · rintro ⟨θ, h0, h⟩; exact (complete θ h0 h).1
  · intro hb θ
    exact ⟨fun h => ⟨keep θ h, sound hb θ h⟩, fun h => (complete θ h.1 h.2).2⟩

/-- **C67.** Two terms are found equal if and only if they are the same tree, whatever the places of their records and cells. -/
theorem C67_equal (M : Mem) {x y : Term} (hx : Fine M x) (hy : Fine M y) : equalTerm M x y = .ok true ↔ tree M x = tree M y :=
  equalTerm_iff hx hy

/-- **C67.** Matching, from a state without bindings, says yes if and only if the second term is an instance of the first; the bindings
are the substitution; and afterwards clearing the stack clears them. A yes is never missed: if there is such a substitution, the code runs
without reading what it must not. -/
theorem C67_match (M : Mem) {x y : Term} (hx : Fine M x) (hy : Fine M y) :
    ((∃ s, matchTerm M x y St.clear = .ok (true, s)) ↔ ∃ θ, (tree M x).subst θ = tree M y) ∧
    (∀ b s, matchTerm M x y St.clear = .ok (b, s) → s.clearStack = St.clear ∧
      (b = true → (tree M x).subst (s.subst M) = tree M y) ∧ (b = false → ∀ θ, (tree M x).subst θ ≠ tree M y)) := by
  refine ⟨⟨?_, ?_⟩, ?_⟩
  · rintro ⟨s, h⟩
    exact (match_clear hx hy h).2.1 rfl
  · rintro ⟨θ, h⟩
    exact matchTerm_finds x y St.clear θ hx hy (minv_clear M) (fun n t h => by cases h) h
  · intro b s h
    have P := matchTerm_says x y _ _ _ hx hy (minv_clear M) h
    refine ⟨clearStack_eq P.grows.inv, fun hb => P.sound hb _ (subst_binds M s), fun hb θ he => ?_⟩
    have := (P.complete θ (fun n t h => by cases h) he).1
    rw [hb] at this
    cases this

/-- **C67.** For atoms without function terms, equality and matching never read what they must not. -/
theorem C67_flat (M : Mem) {x y : Term} (hx : Fine M x) (hy : Fine M y) (fx : Flat x) (fy : Flat y) :
    (∃ b, equalTerm M x y = .ok b) ∧ ∃ b s, matchTerm M x y St.clear = .ok (b, s) := by
  obtain ⟨b, s, h, _⟩ := matchAtom_flat hx hy fx fy (finv_clear M)
  exact ⟨equalTerm_flat fx fy, b, s, h⟩

/-- **C68.** If the test for subsumption ends, its answer is right: yes if and only if there is a substitution under which the literals
of the first clause are different literals of the second; and no bindings are left. -/
theorem C68_subsume_partial (M : Mem) {c1 c2 : Clause} (h1 : c1.Fine M) (h2 : c2.Fine M) (hg : c1.FactGround M) (hne : c1.lits ≠ [])
    {b : Bool} {s : St} (h : subsume M c1 c2 St.clear = .ok (b, s)) : s = St.clear ∧ (b = true ↔ Subsumes M c1 c2) :=
  subsume_says h1 h2 hg hne h

/-- **C68.** For clauses without function terms it always ends, and the answer is right. -/
theorem C68_subsume_flat (M : Mem) {c1 c2 : Clause} (h1 : c1.Fine M) (h2 : c2.Fine M) (f1 : c1.Flat) (f2 : c2.Flat) (hg : c1.FactGround M)
    (hne : c1.lits ≠ []) : ∃ b, subsume M c1 c2 St.clear = .ok (b, St.clear) ∧ (b = true ↔ Subsumes M c1 c2) := by
  obtain ⟨b, s, h⟩ := subsume_flat h1 h2 f1 f2 hne
  have := subsume_says h1 h2 hg hne h
  obtain ⟨rfl, hb⟩ := this
  exact ⟨b, h, hb⟩

/-- **C68.** A new clause without function terms is thrown away if and only if one of the clauses in use subsumes it. -/
theorem C68_given_flat (M : Mem) {c : Clause} (hc : c.Fine M) (fc : c.Flat) : ∀ (cs : List Clause),
    (∀ d : Clause, d ∈ cs → d.Fine M ∧ d.Flat ∧ d.FactGround M ∧ d.lits ≠ []) →
    ∃ b, givenSubsumed M c cs St.clear = .ok (b, St.clear) ∧ (b = true ↔ ∃ d, d ∈ cs ∧ Subsumes M d c)
  | [], _ => ⟨false, rfl, by simp⟩
  | d :: cs, h => by
    obtain ⟨h1, h2, h3, h4⟩ := h d (by simp)
    obtain ⟨b, hb, hb2⟩ := C68_subsume_flat M h1 hc h2 fc h3 h4
    rw [givenSubsumed, hb, bind_ok]
    cases b with
    | true => exact ⟨true, rfl, fun _ => ⟨d, by simp, hb2.1 rfl⟩, fun _ => rfl⟩
    | false =>
      obtain ⟨b', hb', hb2'⟩ := C68_given_flat M hc fc cs fun d hd => h d (by simp [hd])
      refine ⟨b', hb', ?_⟩
      have : ¬ Subsumes M d c := fun hs => absurd (hb2.2 hs) (by simp)
      rw [hb2']
      simp [this]

end WG.Reason
