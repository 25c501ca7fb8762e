import Verif.Reason.BuiltCl

/-! # The literals of a result -/
namespace WG.Reason

theorem dupLoop_says {M : Mem} {l : Lit} (hl : Fine M l.atom) : ∀ (ks : List Lit) (e : Option Bool), (∀ k : Lit, k ∈ ks → Fine M k.atom) →
    dupLoop M l ks = .ok e → e = some true → ∃ k, k ∈ ks ∧ k.neg = l.neg ∧ tree M l.atom = tree M k.atom
  | [], e, _, h, he => by injection h with h; subst h; cases he
  | k :: ks, e, hk, h, he => by
    rw [dupLoop] at h
    obtain ⟨r, hr, h⟩ := bind_eq_ok h
    cases r with
    | true =>
      rw [if_pos rfl] at h
      injection h with h; subst h
      injection he with he
      exact ⟨k, by simp, (beq_iff_eq.1 he).symm, (equalTerm_iff hl (hk k (by simp))).1 hr⟩
    | false =>
      rw [if_neg (by simp)] at h
      obtain ⟨k', h1, h2⟩ := dupLoop_says hl ks e (fun k h => hk k (by simp [h])) h he
      exact ⟨k', by simp [h1], h2⟩

theorem addLit_says {cfg : Cfg} {M : Mem} {l : Lit} {r r' : List Lit} (hl : Fine M l.atom) (hr : ∀ k : Lit, k ∈ r → Fine M k.atom)
    (h : addLit M l r = .ok (some r')) :
    (∀ k : Lit, k ∈ r → k ∈ r') ∧ (∀ k : Lit, k ∈ r' → k ∈ r ∨ k = l) ∧
    ∀ (D : Type) (I : Interp D) (ρ : Nat → D), I.Std cfg M → l.True M I ρ → ∃ k : Lit, k ∈ r' ∧ k.True M I ρ := by
  have keep : ∀ {P : Prop}, P → (∀ k : Lit, k ∈ r → k ∈ r) ∧ (∀ k : Lit, k ∈ r → k ∈ r ∨ k = l) ∧ P :=
    fun h => ⟨fun _ h => h, fun _ h => Or.inl h, h⟩
  rw [addLit] at h
  by_cases h1 : l.atom.same (.con aTrue) = true
  · rw [if_pos h1] at h
    injection h with h
    have e := same_eq hl (.con _) h1
    by_cases hn : l.neg = true
    · rw [if_pos hn] at h
      injection h with h; subst h
      refine keep fun D I ρ hI ht => ?_
      unfold Lit.True at ht
      rw [if_pos hn, e] at ht
      exact absurd hI.yes ht
    · rw [if_neg hn] at h; cases h
  · rw [if_neg h1] at h
    by_cases h2 : l.atom.same (.con aFalse) = true
    · rw [if_pos h2] at h
      injection h with h
      have e := same_eq hl (.con _) h2
      by_cases hn : l.neg = true
      · rw [if_pos hn] at h; cases h
      · rw [if_neg hn] at h
        injection h with h; subst h
        refine keep fun D I ρ hI ht => ?_
        unfold Lit.True at ht
        rw [if_neg hn, e] at ht
        exact absurd ht hI.no
    · rw [if_neg h2] at h
      obtain ⟨e, he, h⟩ := bind_eq_ok h
      match e, he, h with
      | none, _, h =>
        injection h with h; injection h with h; subst h
        refine ⟨fun k hk => by simp [hk], fun k hk => ?_, fun D I ρ _ ht => ⟨l, by simp, ht⟩⟩
        rcases List.mem_append.1 hk with hk | hk
        · exact Or.inl hk
        · exact Or.inr (List.mem_singleton.1 hk)
      | some true, he, h =>
        injection h with h; injection h with h; subst h
        refine keep fun D I ρ hI ht => ?_
        obtain ⟨k, hk, hn, htr⟩ := dupLoop_says hl r _ hr he rfl
        refine ⟨k, hk, ?_⟩
        unfold Lit.True at ht ⊢
        rw [hn, ← eval_tree I.alg ρ htr]
        exact ht
      | some false, _, h => cases h

/-- What the loop over the literals of a parent gives. -/
structure Aux (cfg : Cfg) (B : Nat) (cut : Term) (ls : List Lit) (b : Bld) (r : List Lit) (r' : List Lit) (b' : Bld) : Prop where
  grow : Grow b b'
  fine : ∀ k : Lit, k ∈ r' → Fine b'.mem k.atom
  low : Low r → Low r'
  keep : ∀ k : Lit, k ∈ r → k ∈ r'
  eval : ∀ (D : Type) (I : Interp D) (ρ ρ' : Nat → D), I.Std cfg b.mem → Resp b'.mem I.alg ρ b'.st → Link B ρ ρ' →
    ∀ l : Lit, l ∈ ls → l.True b.mem I ρ → l.atom.same cut = true ∨ ∃ k : Lit, k ∈ r' ∧ k.True b'.mem I ρ'

theorem lit_cells {D : Type} {M M' : Mem} (h : Cells M M') {I : Interp D} {ρ : Nat → D} {l : Lit} : l.True M' I ρ ↔ l.True M I ρ := by
  unfold Lit.True; rw [ev_cells h]

theorem auxLoop_says {cfg : Cfg} {B : Nat} {bd : Bld → Term → Res (Option (Term × Bld))}
    (hbd : ∀ b x t b', BOK b → Fine b.mem x → bd b x = .ok (some (t, b')) → Says cfg B b x t b') (cut : Term) :
    ∀ (ls : List Lit) (b : Bld) (r r' : List Lit) (b' : Bld), BOK b → (∀ l : Lit, l ∈ ls → Fine b.mem l.atom) →
    (∀ k : Lit, k ∈ r → Fine b.mem k.atom) → auxLoop bd cut ls b r = .ok (some (some r', b')) → Aux cfg B cut ls b r r' b'
  | [], b, r, r', b', hb, _, hr, h => by
    injection h with h; injection h with h; injection h with e1 e2; injection e1 with e1; subst e1; subst e2
    exact ⟨hb.refl, hr, fun h => h, fun _ h => h, fun _ _ _ _ _ _ _ l hl => (by cases hl)⟩
  | l :: ls, b, r, r', b', hb, hls, hr, h => by
    rw [auxLoop] at h
    by_cases hc : l.atom.same cut = true
    · rw [if_pos hc] at h
      have P := auxLoop_says hbd cut ls b r r' b' hb (fun l h => hls l (by simp [h])) hr h
      refine ⟨P.grow, P.fine, P.low, P.keep, fun D I ρ ρ' hI hR hL k hk ht => ?_⟩
      rcases List.mem_cons.1 hk with e | hk
      · subst e; exact Or.inl hc
      · exact P.eval D I ρ ρ' hI hR hL k hk ht
    · rw [if_neg hc] at h
      obtain ⟨p, hp, h⟩ := bind_eq_ok h
      cases p with
      | none => cases h
      | some p =>
        obtain ⟨u, b1⟩ := p
        obtain ⟨q, hq, h⟩ := bind_eq_ok h
        cases q with
        | none => cases h
        | some r1 =>
          have S := hbd b l.atom u b1 hb (hls l (by simp)) hp
          have hr1 : ∀ k : Lit, k ∈ r → Fine b1.mem k.atom := fun k hk => fine_ext hb.blank S.grow.ext (hr k hk)
          obtain ⟨g1, g2, g3⟩ := addLit_says (cfg := cfg) S.fine hr1 hq
          have hr2 : ∀ k : Lit, k ∈ r1 → Fine b1.mem k.atom := by
            intro k hk
            rcases g2 k hk with h | h
            · exact hr1 k h
            · subst h; exact S.fine
          have P := auxLoop_says hbd cut ls b1 r1 r' b' S.grow.ok (fun l h => fine_ext hb.blank S.grow.ext (hls l (by simp [h]))) hr2 h
          refine ⟨S.grow.trans P.grow, P.fine, fun hlow => P.low fun k hk => ?_, fun k hk => P.keep k (g1 k hk),
            fun D I ρ ρ' hI hR hL k hk ht => ?_⟩
          · rcases g2 k hk with h | h
            · exact hlow k h
            · subst h; exact S.vars
          · have hI1 := std_cells S.grow.ext.cells hI
            rcases List.mem_cons.1 hk with e | hk
            · subst e
              have hev := S.eval D I ρ ρ' hI (P.grow.resp hR) hL
              obtain ⟨k', hk', ht'⟩ := g3 D I ρ' hI1 (by
                unfold Lit.True at ht ⊢
                simp only at ht ⊢
                rw [hev]; exact ht)
              exact Or.inr ⟨k', P.keep k' hk', (lit_cells P.grow.ext.cells).2 ht'⟩
            · exact P.eval D I ρ ρ' hI1 hR hL k hk ((lit_cells S.grow.ext.cells).2 ht)

theorem auxCl_says {cfg : Cfg} {B : Nat} {bd : Bld → Term → Res (Option (Term × Bld))}
    (hbd : ∀ b x t b', BOK b → Fine b.mem x → bd b x = .ok (some (t, b')) → Says cfg B b x t b') {cut : Term} {c : Clause} {b : Bld}
    {r r' : List Lit} {b' : Bld} (hb : BOK b) (hc : c.Fine b.mem) (hr : ∀ k : Lit, k ∈ r → Fine b.mem k.atom)
    (hcut : ∃ l : Lit, l ∈ c.lits ∧ l.atom = cut) (h : auxCl bd c cut b r = .ok (some (some r', b'))) :
    Aux cfg B cut c.lits b r r' b' := by
  rw [auxCl] at h
  by_cases hl : 1 < c.lits.length
  · rw [if_pos hl] at h
    exact auxLoop_says hbd cut _ _ _ _ _ hb hc hr h
  · rw [if_neg hl] at h
    injection h with h; injection h with h; injection h with e1 e2; injection e1 with e1; subst e1; subst e2
    refine ⟨hb.refl, hr, fun h => h, fun _ h => h, fun _ _ _ _ _ _ _ k hk _ => Or.inl ?_⟩
    obtain ⟨l, hl', e⟩ := hcut
    have : k = l := by
      match c.lits, hl, hk, hl' with
      | [a], _, hk, hl' => simp_all
      | _ :: _ :: _, hl, _, _ => simp at hl
    rw [this, ← e]
    exact same_refl (hc l hl')

/-- **One step of resolution.** If both parents are true, so is the result. -/
theorem auxBoth_says {cfg : Cfg} {B : Nat} {bd : Bld → Term → Res (Option (Term × Bld))}
    (hbd : ∀ b x t b', BOK b → Fine b.mem x → bd b x = .ok (some (t, b')) → Says cfg B b x t b') {x y : Term} {xcl ycl : Clause} {b : Bld}
    {r : List Lit} {b' : Bld} (hb : BOK b) (hx : xcl.Fine b.mem) (hy : ycl.Fine b.mem) (cx : Clean xcl.lits) (cy : Clean ycl.lits)
    {n : Bool} (mx : ⟨n, x⟩ ∈ xcl.lits) (my : ⟨!n, y⟩ ∈ ycl.lits) (ax : ∃ a us, x = .app a us) (ay : ∃ a us, y = .app a us)
    (he : ∀ (D : Type) (A : Alg D) (ρ : Nat → D), Resp b.mem A ρ b.st → ev b.mem A ρ x = ev b.mem A ρ y)
    (h : auxBoth bd x xcl y ycl b = .ok (some (some r, b'))) :
    Grow b b' ∧ (∀ k : Lit, k ∈ r → Fine b'.mem k.atom) ∧ Low r ∧
    ∀ (D : Type) (I : Interp D), I.Std cfg b.mem → xcl.True b.mem I → ycl.True b.mem I → (Clause.rule r).True b'.mem I := by
  rw [auxBoth] at h
  obtain ⟨p, hp, h⟩ := bind_eq_ok h
  match p, hp, h with
  | none, _, h => cases h
  | some (none, _), _, h => cases h
  | some (some r1, b1), hp, h =>
    have P := auxCl_says hbd hb hx (fun k hk => by cases hk) ⟨_, mx, rfl⟩ hp
    have hy1 : ycl.Fine b1.mem := fun l hl => fine_ext hb.blank P.grow.ext (hy l hl)
    have Q := auxCl_says hbd P.grow.ok hy1 P.fine ⟨_, my, rfl⟩ h
    refine ⟨P.grow.trans Q.grow, Q.fine, Q.low (P.low fun l hl => (by cases hl)), fun D I hI tx ty ρ' => ?_⟩
    obtain ⟨ρ, hR, hL⟩ := exists_link Q.grow.ok I.alg B ρ'
    obtain ⟨l, hl, htl⟩ := tx ρ
    obtain ⟨k, hk, htk⟩ := ty ρ
    have whole : ∀ (c : Clause) (z : Term) (m : Bool) (l : Lit), c.Fine b.mem → Clean c.lits → ⟨m, z⟩ ∈ c.lits → (∃ a us, z = .app a us) →
        l ∈ c.lits → l.atom.same z = true → l = ⟨m, z⟩ := by
      rintro c z m l hc hcl hm ⟨a, us, e⟩ hl hs
      have e1 := same_eq (hc l hl) (hc _ hm) hs
      exact hcl.eq hl hm ⟨a, us, us, e1.trans e, e⟩
    rcases P.eval D I ρ ρ' hI (Q.grow.resp hR) hL l hl htl with hcl | ⟨l', hl', ht'⟩
    · rcases Q.eval D I ρ ρ' (std_cells P.grow.ext.cells hI) hR hL k hk ((lit_cells P.grow.ext.cells).2 htk) with hck | ⟨k', hk', ht'⟩
      · exfalso
        have e1 := whole xcl x n l hx cx mx ax hl hcl
        have e2 := whole ycl y (!n) k hy cy my ay hk hck
        subst e1; subst e2
        unfold Lit.True at htl htk
        simp only at htl htk
        rw [he D I.alg ρ ((P.grow.trans Q.grow).resp hR)] at htl
        cases n with
        | true => exact htl htk
        | false => exact htk htl
      · exact ⟨k', hk', ht'⟩
    · exact ⟨l', Q.keep l' hl', (lit_cells Q.grow.ext.cells).2 ht'⟩

end WG.Reason
