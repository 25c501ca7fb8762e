import Verif.Reason.Fwd

/-! # Where the literals of a result come from -/
namespace WG.Reason

theorem dupLoop_false {M : Mem} {l : Lit} (hl : Fine M l.atom) : ∀ (ks : List Lit), (∀ k : Lit, k ∈ ks → Fine M k.atom) →
    dupLoop M l ks = .ok (some false) → ∃ k, k ∈ ks ∧ k.neg = !l.neg ∧ tree M l.atom = tree M k.atom
  | [], _, h => by injection h with h; cases h
  | k :: ks, hk, h => by
    rw [dupLoop] at h
    obtain ⟨r, hr, h⟩ := bind_eq_ok h
    cases r with
    | true =>
      rw [if_pos rfl] at h
      injection h with h; injection h with h
      refine ⟨k, by simp, ?_, (equalTerm_iff hl (hk k (by simp))).1 hr⟩
      revert h
      cases l.neg <;> cases k.neg <;> simp
    | false =>
      rw [if_neg (by simp)] at h
      obtain ⟨k', h1, h2⟩ := dupLoop_false hl ks (fun k h => hk k (by simp [h])) h
      exact ⟨k', by simp [h1], h2⟩

theorem addLit_back {M : Mem} {l : Lit} {r : List Lit} {o : Option (List Lit)} (hp : Plain l.atom) (hl : Fine M l.atom)
    (hr : ∀ k : Lit, k ∈ r → Fine M k.atom) (h : addLit M l r = .ok o) :
    o = some (r ++ [l]) ∨ o = some r ∨ o = none ∧ ∃ k, k ∈ r ∧ k.neg = !l.neg ∧ tree M l.atom = tree M k.atom := by
  have key : ∀ (c : Const) (t : Term), Plain t → t.same (.con c) = false := by
    intro c t hp
    cases hp with
    | app _ _ _ => rfl
  have no := fun c => key c _ hp
  rw [addLit, if_neg (by simp [no]), if_neg (by simp [no])] at h
  obtain ⟨e, he, h⟩ := bind_eq_ok h
  match e, he, h with
  | none, _, h => injection h with h; exact Or.inl h.symm
  | some true, _, h => injection h with h; exact Or.inr (Or.inl h.symm)
  | some false, he, h => injection h with h; exact Or.inr (Or.inr ⟨h.symm, dupLoop_false hl r hr he⟩)

/-- The signed values of the literals so far, and of those to come. -/
def Src {D : Type} (M : Mem) (A : Alg D) (ρ ρ' : Nat → D) (r : List Lit) (cut : Term) (ls : List Lit) (p : Bool × D) : Prop :=
  (∃ k : Lit, k ∈ r ∧ p = (k.neg, ev M A ρ' k.atom)) ∨ ∃ l : Lit, l ∈ ls ∧ l.atom.same cut = false ∧ p = (l.neg, ev M A ρ l.atom)

/-- The literals with such signs. -/
def cnt (p : Bool → Bool) (ls : List Lit) : Nat := ls.countP fun l => p l.neg

def uncut (cut : Term) (ls : List Lit) : List Lit := ls.filter fun l => !l.atom.same cut

/-- Nothing comes from nowhere, and what is dropped is always true. -/
structure Back (cfg : Cfg) (B : Nat) (M : Mem) (cut : Term) (ls : List Lit) (b : Bld) (r : List Lit) (o : Option (List Lit)) (b' : Bld) : Prop where
  fwd : Fwd b b'
  count : ∀ r', o = some r' → ∀ p, cnt p r' ≤ cnt p r + cnt p (uncut cut ls)
  src : ∀ (D : Type) (I : Interp D) (ρ ρ' : Nat → D), I.Std cfg M → Resp b'.mem I.alg ρ b'.st → Link B ρ ρ' →
    (∀ r', o = some r' → ∀ k : Lit, k ∈ r' → Src M I.alg ρ ρ' r cut ls (k.neg, ev M I.alg ρ' k.atom)) ∧
    (o = none → ∃ T, Src M I.alg ρ ρ' r cut ls (true, T) ∧ Src M I.alg ρ ρ' r cut ls (false, T))

variable {cfg : Cfg} {comp : Bool} {M : Mem}

theorem auxLoop_back {B : Nat} (hB : B ≤ 3) {f : Nat} (cut : Term) : ∀ (ls : List Lit) (b : Bld) (r : List Lit) (o : Option (List Lit)) (b' : Bld),
    Cells M b.mem → BOK b → FlatSt b.st → HighFree b → (∀ l : Lit, l ∈ ls → Fine b.mem l.atom ∧ Plain l.atom) → Low ls →
    (∀ k : Lit, k ∈ r → Fine b.mem k.atom) → auxLoop (build cfg comp (some B) f) cut ls b r = .ok (some (o, b')) →
    Back cfg B M cut ls b r o b'
  | [], b, r, o, b', _, _, _, hh, _, _, _, h => by
    injection h with h; injection h with h; injection h with e1 e2; subst e1; subst e2
    refine ⟨.refl hh, fun r' e p => ?_, fun D I ρ ρ' _ _ _ => ⟨fun r' e k hk => ?_, fun e => by cases e⟩⟩
    · injection e with e; subst e; exact Nat.le_add_right _ _
    · injection e with e; subst e; exact Or.inl ⟨k, hk, rfl⟩
  | l :: ls, b, r, o, b', hM, hb, hfl, hh, hls, hlow, hr, h => by
    rw [auxLoop] at h
    by_cases hc : l.atom.same cut = true
    · rw [if_pos hc] at h
      have P := auxLoop_back hB cut ls b r o b' hM hb hfl hh (fun l h => hls l (by simp [h])) (fun l h => hlow l (by simp [h])) hr h
      have up : ∀ {D : Type} {I : Interp D} {ρ ρ' : Nat → D} {p}, Src M I.alg ρ ρ' r cut ls p → Src M I.alg ρ ρ' r cut (l :: ls) p := by
        rintro D I ρ ρ' p (h | ⟨k, h1, h2⟩)
        · exact Or.inl h
        · exact Or.inr ⟨k, by simp [h1], h2⟩
      refine ⟨P.fwd, fun r' e p => ?_, fun D I ρ ρ' hI hR hL => ?_⟩
      · rw [uncut, List.filter_cons_of_neg (by simp [hc])]; exact P.count r' e p
      · obtain ⟨h1, h2⟩ := P.src D I ρ ρ' hI hR hL
        refine ⟨fun r' e k hk => up (h1 r' e k hk), fun e => ?_⟩
        obtain ⟨T, t1, t2⟩ := h2 e
        exact ⟨T, up t1, up t2⟩
    · rw [if_neg hc] at h
      have hc : l.atom.same cut = false := by simpa using hc
      obtain ⟨q, hq, h⟩ := bind_eq_ok h
      cases q with
      | none => cases h
      | some q =>
        obtain ⟨u, b1⟩ := q
        simp only at h
        obtain ⟨o1, ho, h⟩ := bind_eq_ok h
        obtain ⟨fl, pl⟩ := hls l (by simp)
        have S := build_says hB f b l.atom u b1 hb fl hq
        obtain ⟨F, _⟩ := build_fwd hB f b l.atom u b1 hb hh fl
          (fun v h => Nat.lt_of_lt_of_le (hlow l (by simp) v h) (Nat.le_add_right _ _)) hq
        obtain ⟨hfl1, pu⟩ := (buildAtom_safe hB hb hfl fl pl).2 _ hq (u, b1) rfl
        have hM1 := hM.trans S.grow.ext.cells
        have hr1 : ∀ k : Lit, k ∈ r → Fine b1.mem k.atom := fun k hk => fine_ext hb.blank S.grow.ext (hr k hk)
        have heq : ∀ (D : Type) (I : Interp D) (ρ ρ' : Nat → D), I.Std cfg M → Resp b1.mem I.alg ρ b1.st → Link B ρ ρ' →
            ev M I.alg ρ' u = ev M I.alg ρ l.atom := by
          intro D I ρ ρ' hI hR hL
          have := S.eval D I ρ ρ' (std_cells hM hI) hR hL
          rwa [ev_cells hM1, ev_cells hM] at this
        have hlc : ∀ {D : Type} {I : Interp D} {ρ ρ' : Nat → D}, Src M I.alg ρ ρ' r cut (l :: ls) (l.neg, ev M I.alg ρ l.atom) :=
          Or.inr ⟨l, by simp, hc, rfl⟩
        have un : uncut cut (l :: ls) = l :: uncut cut ls := by rw [uncut, List.filter_cons_of_pos (by simp [hc])]; rfl
        -- the rest, with the literals `r1`
        have rest : ∀ r1, (r1 = r ++ [⟨l.neg, u⟩] ∨ r1 = r) → auxLoop (build cfg comp (some B) f) cut ls b1 r1 = .ok (some (o, b')) →
            Back cfg B M cut (l :: ls) b r o b' := by
          intro r1 hr1' h
          have hr2 : ∀ k : Lit, k ∈ r1 → k ∈ r ∨ k = ⟨l.neg, u⟩ := by
            intro k hk
            rcases hr1' with e | e
            · subst e
              rcases List.mem_append.1 hk with hk | hk
              · exact Or.inl hk
              · exact Or.inr (List.mem_singleton.1 hk)
            · subst e; exact Or.inl hk
          have P := auxLoop_back hB cut ls b1 r1 o b' hM1 S.grow.ok hfl1 F.high
            (fun k hk => ⟨fine_ext hb.blank S.grow.ext (hls k (by simp [hk])).1, (hls k (by simp [hk])).2⟩) (fun l h => hlow l (by simp [h]))
            (fun k hk => by
              rcases hr2 k hk with h | h
              · exact hr1 k h
              · subst h; exact S.fine) h
          refine ⟨F.trans P.fwd, fun r' e p => ?_, fun D I ρ ρ' hI hR hL => ?_⟩
          · have h1 := P.count r' e p
            have h2 : cnt p r1 ≤ cnt p r + if p l.neg = true then 1 else 0 := by
              rcases hr1' with e | e
              · subst e; simp [cnt, List.countP_append, List.countP_cons]
              · subst e; exact Nat.le_add_right _ _
            have h3 : cnt p (uncut cut (l :: ls)) = cnt p (uncut cut ls) + if p l.neg = true then 1 else 0 := by
              rw [un]; simp only [cnt, List.countP_cons]
            omega
          · have g : Grow b1 b' := auxLoop_grow (build_says hB f) cut ls b1 r1 o b' S.grow.ok
              (fun k hk => fine_ext hb.blank S.grow.ext (hls k (by simp [hk])).1) h
            have heq := heq D I ρ ρ' hI (g.resp hR) hL
            have up : ∀ {p}, Src M I.alg ρ ρ' r1 cut ls p → Src M I.alg ρ ρ' r cut (l :: ls) p := by
              rintro p (⟨k, h1, h2⟩ | ⟨k, h1, h2⟩)
              · rcases hr2 k h1 with h | h
                · exact Or.inl ⟨k, h, h2⟩
                · subst h; subst h2
                  simp only
                  rw [heq]; exact hlc
              · exact Or.inr ⟨k, by simp [h1], h2⟩
            obtain ⟨h1, h2⟩ := P.src D I ρ ρ' hI hR hL
            refine ⟨fun r' e k hk => up (h1 r' e k hk), fun e => ?_⟩
            obtain ⟨T, t1, t2⟩ := h2 e
            exact ⟨T, up t1, up t2⟩
        rcases addLit_back pu S.fine hr1 ho with e | e | ⟨e, k, hk, hn, ht⟩
        · subst e; exact rest _ (Or.inl rfl) h
        · subst e; exact rest _ (Or.inr rfl) h
        · subst e
          simp only at h
          injection h with h; injection h with h; injection h with e1 e2; subst e1; subst e2
          refine ⟨F, fun r' e p => (by cases e), fun D I ρ ρ' hI hR hL => ⟨fun r' e => (by cases e), fun _ => ⟨ev M I.alg ρ l.atom, ?_⟩⟩⟩
          have heq := heq D I ρ ρ' hI hR hL
          have ht' : ev b1.mem I.alg ρ' u = ev b1.mem I.alg ρ' k.atom := eval_tree I.alg ρ' ht
          rw [ev_cells hM1, ev_cells hM1, heq] at ht'
          have hk' : Src M I.alg ρ ρ' r cut (l :: ls) (k.neg, ev M I.alg ρ l.atom) := Or.inl ⟨k, hk, by rw [ht']⟩
          have hl' := hlc (I := I) (ρ := ρ) (ρ' := ρ')
          simp only at hn
          rw [hn] at hk'
          cases hln : l.neg with
          | true => rw [hln] at hk' hl'; exact ⟨hl', hk'⟩
          | false => rw [hln] at hk' hl'; exact ⟨hk', hl'⟩

theorem auxCl_back {B : Nat} (hB : B ≤ 3) {f : Nat} {cut : Term} {c : Clause} {b : Bld} {r : List Lit} {o : Option (List Lit)} {b' : Bld}
    (hM : Cells M b.mem) (hb : BOK b) (hfl : FlatSt b.st) (hh : HighFree b) (hc : c.Fine b.mem) (hp : c.Plain) (hlow : Low c.lits)
    (hr : ∀ k : Lit, k ∈ r → Fine b.mem k.atom) (h : auxCl (build cfg comp (some B) f) c cut b r = .ok (some (o, b'))) :
    Back cfg B M cut c.lits b r o b' := by
  rw [auxCl] at h
  by_cases hl : 1 < c.lits.length
  · rw [if_pos hl] at h
    exact auxLoop_back hB cut _ _ _ _ _ hM hb hfl hh (fun l hl => ⟨hc l hl, hp.2 l hl⟩) hlow hr h
  · rw [if_neg hl] at h
    injection h with h; injection h with h; injection h with e1 e2; subst e1; subst e2
    refine ⟨.refl hh, fun r' e p => ?_, fun D I ρ ρ' _ _ _ => ⟨fun r' e k hk => ?_, fun e => by cases e⟩⟩
    · injection e with e; subst e; exact Nat.le_add_right _ _
    · injection e with e; subst e; exact Or.inl ⟨k, hk, rfl⟩

/-- The signed values of the literals that are not cut. -/
def Rest {D : Type} (M : Mem) (A : Alg D) (σ : Nat → D) (x : Term) (xcl : Clause) (y : Term) (ycl : Clause) (p : Bool × D) : Prop :=
  (∃ l : Lit, l ∈ xcl.lits ∧ l.atom.same x = false ∧ p = (l.neg, ev M A σ l.atom)) ∨
  ∃ l : Lit, l ∈ ycl.lits ∧ l.atom.same y = false ∧ p = (l.neg, ev M A σ l.atom)

theorem Rest.congr {D : Type} {A : Alg D} {σ ρ : Nat → D} {x y : Term} {xcl ycl : Clause} (hx : Low xcl.lits) (hy : Low ycl.lits)
    (h : ∀ n, n < 4000 → ρ n = σ n) {p : Bool × D} (hr : Rest M A ρ x xcl y ycl p) : Rest M A σ x xcl y ycl p := by
  rcases hr with ⟨l, h1, h2, h3⟩ | ⟨l, h1, h2, h3⟩
  · exact Or.inl ⟨l, h1, h2, by rw [h3, ev_congr M A ρ σ _ fun v hv => h v (hx l h1 v hv)]⟩
  · exact Or.inr ⟨l, h1, h2, by rw [h3, ev_congr M A ρ σ _ fun v hv => h v (hy l h1 v hv)]⟩

/-- **One step of resolution loses nothing.** For all values of the variables that fit the unifier: the result says what is left of the
parents, or this is true anyway. -/
theorem auxBoth_back {B : Nat} (hB : B ≤ 3) {f : Nat} {x y : Term} {xcl ycl : Clause} {b : Bld} {o : Option (List Lit)} {b' : Bld}
    (hM : Cells M b.mem) (hb : BOK b) (hfl : FlatSt b.st) (hh : HighFree b) (hx : xcl.Fine b.mem) (hy : ycl.Fine b.mem)
    (px : xcl.Plain) (py : ycl.Plain) (lx : Low xcl.lits) (ly : Low ycl.lits)
    (h : auxBoth (build cfg comp (some B) f) x xcl y ycl b = .ok (some (o, b'))) :
    (∀ r, o = some r → ∀ p, cnt p r ≤ cnt p (uncut x xcl.lits) + cnt p (uncut y ycl.lits)) ∧
    ∀ (D : Type) (I : Interp D) (σ : Nat → D), I.Std cfg M → Resp b.mem I.alg σ b.st →
    (∀ r, o = some r → ∃ ρ', ∀ k : Lit, k ∈ r → Rest M I.alg σ x xcl y ycl (k.neg, ev M I.alg ρ' k.atom)) ∧
    (o = none → ∃ T, Rest M I.alg σ x xcl y ycl (true, T) ∧ Rest M I.alg σ x xcl y ycl (false, T)) := by
  rw [auxBoth] at h
  obtain ⟨p, hp, h⟩ := bind_eq_ok h
  match p, hp, h with
  | none, _, h => cases h
  | some (none, b1), hp, h =>
    simp only at h
    injection h with h; injection h with h; injection h with e1 e2; subst e1; subst e2
    have P := auxCl_back hB hM hb hfl hh hx px lx (fun k hk => by cases hk) hp
    refine ⟨fun r e => (by cases e), fun D I σ hI hR => ⟨fun r e => (by cases e), fun _ => ?_⟩⟩
    obtain ⟨ρ, hρ, hσ⟩ := P.fwd.more D I.alg σ hR
    obtain ⟨T, t1, t2⟩ := (P.src D I ρ _ hI hρ (link_of B ρ)).2 rfl
    have up : ∀ {p}, Src M I.alg ρ (fun n => ρ (4000 + (n - B * 1000))) [] x xcl.lits p → Rest M I.alg σ x xcl y ycl p := by
      rintro p (⟨k, h1, _⟩ | ⟨l, h1, h2, h3⟩)
      · cases h1
      · exact Rest.congr lx ly (fun n hn => hσ n (Nat.lt_of_lt_of_le hn (Nat.le_add_right _ _))) (Or.inl ⟨l, h1, h2, h3⟩)
    exact ⟨T, up t1, up t2⟩
  | some (some r1, b1), hp, h =>
    simp only at h
    have P := auxCl_back hB hM hb hfl hh hx px lx (fun k hk => by cases hk) hp
    have G := auxCl_grow (build_says hB f) hb hx hp
    have hfine : ∀ k : Lit, k ∈ r1 → Fine b1.mem k.atom := by
      intro k hk
      rw [auxCl] at hp
      by_cases hl : 1 < xcl.lits.length
      · rw [if_pos hl] at hp
        exact (auxLoop_says (build_says hB f) x _ b _ _ _ hb hx (fun k hk => by cases hk) hp).fine k hk
      · rw [if_neg hl] at hp
        injection hp with hp; injection hp with hp; injection hp with e1 e2; injection e1 with e1; subst e1
        cases hk
    obtain ⟨_, hfl1⟩ := (auxCl_safe (cfg := cfg) (comp := comp) hB (f := f) (cut := x) hb hfl hx px (r := []) fun k hk => by cases hk).2 _ hp _ rfl
    have Q := auxCl_back hB (hM.trans G.ext.cells) G.ok hfl1 P.fwd.high (fun l hl => fine_ext hb.blank G.ext (hy l hl)) py ly hfine h
    have G2 := auxCl_grow (build_says hB f) G.ok (fun l hl => fine_ext hb.blank G.ext (hy l hl)) h
    refine ⟨fun r e p => ?_, fun D I σ hI hR => ?_⟩
    · have h1 := Q.count r e p
      have h2 := P.count r1 rfl p
      simp only [cnt, List.countP_nil] at h1 h2 ⊢
      omega
    · obtain ⟨ρ, hρ, hσ⟩ := (P.fwd.trans Q.fwd).more D I.alg σ hR
      have s1 := (P.src D I ρ _ hI (G2.resp hρ) (link_of B ρ)).1 r1 rfl
      have s2 := Q.src D I ρ _ hI hρ (link_of B ρ)
      have up : ∀ {p}, Src M I.alg ρ (fun n => ρ (4000 + (n - B * 1000))) r1 y ycl.lits p → Rest M I.alg σ x xcl y ycl p := by
        intro p hp
        refine Rest.congr lx ly (fun n hn => hσ n (Nat.lt_of_lt_of_le hn (Nat.le_add_right _ _))) ?_
        rcases hp with ⟨k, h1, h2⟩ | ⟨l, h1, h2, h3⟩
        · subst h2
          rcases s1 k h1 with ⟨k', h1, _⟩ | ⟨l, h1, h2, h3⟩
          · cases h1
          · exact Or.inl ⟨l, h1, h2, h3⟩
        · exact Or.inr ⟨l, h1, h2, h3⟩
      refine ⟨fun r e => ⟨_, fun k hk => up (s2.1 r e k hk)⟩, fun e => ?_⟩
      obtain ⟨T, t1, t2⟩ := s2.2 e
      exact ⟨T, up t1, up t2⟩

/-- Cutting takes at least one literal away. -/
theorem cnt_uncut {x : Term} {n : Bool} (p : Bool → Bool) : ∀ (ls : List Lit), (⟨n, x⟩ : Lit) ∈ ls → x.same x = true →
    cnt p (uncut x ls) + (if p n = true then 1 else 0) ≤ cnt p ls
  | [], h, _ => by cases h
  | l :: ls, h, hx => by
    have le : cnt p (uncut x ls) ≤ cnt p ls := by
      rw [cnt, uncut, List.countP_filter]
      exact List.countP_mono_left fun l _ h => by simp at h; exact h.1
    rcases List.mem_cons.1 h with e | h
    · subst e
      rw [uncut, List.filter_cons_of_neg (by simp [hx])]
      simp only [cnt, List.countP_cons] at le ⊢
      exact Nat.add_le_add_right le _
    · have ih := cnt_uncut p ls h hx
      by_cases hl : l.atom.same x = true
      · rw [uncut, List.filter_cons_of_neg (by simp [hl])]
        simp only [cnt, List.countP_cons] at ih ⊢
        exact Nat.le_trans ih (Nat.le_add_right _ _)
      · have hl : l.atom.same x = false := by simpa using hl
        rw [uncut, List.filter_cons_of_pos (by simp [hl])]
        simp only [cnt, uncut, List.countP_cons] at ih ⊢
        omega

theorem cnt_true (ls : List Lit) : cnt (fun _ => true) ls = ls.length := by simp [cnt]

end WG.Reason
