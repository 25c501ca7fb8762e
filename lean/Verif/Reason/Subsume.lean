import Verif.Reason.Match
import Verif.Reason.SubSpec
import Mathlib.Data.List.Nodup

/-! # Subsumption: lemmas -/
namespace WG.Reason

/-- A way to map the literals `ls` to literals of `cl` that are not yet used. -/
structure Sol (M : Mem) (θ : Nat → Tree) (cl : List Lit) (used : List Bool) (ls : List Lit) (js : List Nat) : Prop where
  maps : List.Forall₂ (Maps M θ cl) ls js
  nodup : js.Nodup
  free : ∀ j, j ∈ js → used.getD j true = false

structure AuxSays (M : Mem) (cl : List Lit) (ls : List Lit) (used : List Bool) (s : St) (b : Bool) (s' : St) : Prop where
  grows : Grows M s s'
  sound : b = true → ∃ js, ∀ θ, Binds M θ s' → Sol M θ cl used ls js
  complete : ∀ θ js, Binds M θ s → Sol M θ cl used ls js → b = true

/-- The same for the loop, from literal number `i` on. -/
structure LoopSays (M : Mem) (cl : List Lit) (l : Lit) (ls : List Lit) (used : List Bool) (i : Nat) (s : St) (b : Bool) (s' : St) : Prop where
  grows : Grows M s s'
  sound : b = true → ∃ j js, ∀ θ, Binds M θ s' → Sol M θ cl used (l :: ls) (j :: js)
  complete : ∀ θ j js, i ≤ j → Binds M θ s → Sol M θ cl used (l :: ls) (j :: js) → b = true

theorem getD_set (used : List Bool) (i j : Nat) (h : used.getD i true = false) :
    (used.set i true).getD j true = if j = i then true else used.getD j true := by
  simp only [List.getD_eq_getElem?_getD, List.getElem?_set] at h ⊢
  by_cases hij : i = j
  · subst hij
    rw [if_pos rfl, if_pos rfl]
    by_cases hl : i < used.length
    · rw [if_pos hl]; rfl
    · rw [if_neg hl]; rfl
  · rw [if_neg hij, if_neg (fun h => hij h.symm)]

theorem Sol.cons {M : Mem} {θ : Nat → Tree} {cl : List Lit} {used : List Bool} {l : Lit} {ls : List Lit} {j : Nat} {js : List Nat}
    (hm : Maps M θ cl l j) (hu : used.getD j true = false) (h : Sol M θ cl (used.set j true) ls js) : Sol M θ cl used (l :: ls) (j :: js) := by
  have hj : j ∉ js := by
    intro hj
    have := h.free j hj
    rw [getD_set _ _ _ hu, if_pos rfl] at this
    cases this
  refine ⟨.cons hm h.maps, List.nodup_cons.2 ⟨hj, h.nodup⟩, fun k hk => ?_⟩
  rcases List.mem_cons.1 hk with e | hk
  · rw [e]; exact hu
  · have := h.free k hk
    rw [getD_set _ _ _ hu] at this
    by_cases hkj : k = j
    · rw [if_pos hkj] at this; cases this
    · rwa [if_neg hkj] at this

theorem Sol.tail {M : Mem} {θ : Nat → Tree} {cl : List Lit} {used : List Bool} {l : Lit} {ls : List Lit} {j : Nat} {js : List Nat}
    (h : Sol M θ cl used (l :: ls) (j :: js)) : Sol M θ cl (used.set j true) ls js := by
  have hu := h.free j (by simp)
  have hn := List.nodup_cons.1 h.nodup
  cases h.maps with
  | cons hm ht =>
    refine ⟨ht, hn.2, fun k hk => ?_⟩
    rw [getD_set _ _ _ hu, if_neg (fun e => hn.1 (by rw [← e]; exact hk))]
    exact h.free k (by simp [hk])

/-- A literal that matches number `i` without further bindings may as well be mapped there. -/
theorem Sol.swap {M : Mem} {θ : Nat → Tree} {cl : List Lit} {used : List Bool} {l : Lit} {ls : List Lit} {i j : Nat} {js : List Nat}
    (hi : Maps M θ cl l i) (hu : used.getD i true = false)
    (h : Sol M θ cl used (l :: ls) (j :: js)) : ∃ js', Sol M θ cl used (l :: ls) (i :: js') := by
  have hn := List.nodup_cons.1 h.nodup
  cases h.maps with
  | cons hj ht =>
    by_cases hij : i = j
    · subst hij; exact ⟨js, h⟩
    · refine ⟨js.map fun k => if k = i then j else k, .cons hi ?_, List.nodup_cons.2 ⟨?_, ?_⟩, ?_⟩
      · rw [List.forall₂_map_right_iff]
        refine ht.imp fun l' k hk => ?_
        by_cases e : k = i
        · rw [if_pos e]
          subst e
          obtain ⟨a, ha, ha1, ha2⟩ := hi
          obtain ⟨b, hb, hb1, hb2⟩ := hj
          obtain ⟨c, hc, hc1, hc2⟩ := hk
          rw [ha] at hc
          injection hc with hc
          subst hc
          exact ⟨b, hb, by rw [hc1, ← ha1, hb1], by rw [hc2, ← ha2, hb2]⟩
        · rw [if_neg e]; exact hk
      · intro hm
        obtain ⟨k, hk, he⟩ := List.mem_map.1 hm
        by_cases e : k = i
        · rw [if_pos e] at he; exact hij he.symm
        · rw [if_neg e] at he; exact e he
      · refine List.Nodup.map_on ?_ hn.2
        intro a ha b hb he
        by_cases e1 : a = i <;> by_cases e2 : b = i
        · rw [e1, e2]
        · rw [if_pos e1, if_neg e2] at he; rw [← he] at hb; exact absurd hb hn.1
        · rw [if_neg e1, if_pos e2] at he; rw [he] at ha; exact absurd ha hn.1
        · rwa [if_neg e1, if_neg e2] at he
      · intro k hk
        rcases List.mem_cons.1 hk with e | hk
        · rw [e]; exact hu
        · obtain ⟨m, hm, he⟩ := List.mem_map.1 hk
          by_cases e : m = i
          · rw [if_pos e] at he; rw [← he]; exact h.free j (by simp)
          · rw [if_neg e] at he; rw [← he]; exact h.free m (by simp [hm])

theorem stack_same {M : Mem} {s s' : St} (I : MInv M s) (G : Grows M s s') (h : s.stack.length = s'.stack.length) : s' = s := by
  have := grows_undo I G
  rwa [St.undo, if_neg (by simp [h])] at this

theorem subsLoop_says {M : Mem} {cl : List Lit} {k : List Bool → St → Res (Bool × St)} {l : Lit} {ls : List Lit} {used : List Bool}
    (hk : ∀ used s b s', MInv M s → k used s = .ok (b, s') → AuxSays M cl ls used s b s')
    (hl : Fine M l.atom) (hcl : ∀ l : Lit, l ∈ cl → Fine M l.atom) :
    ∀ (suf : List Lit) (i : Nat) (s : St) (b : Bool) (s' : St), suf = cl.drop i → MInv M s →
    subsLoop M k l used i suf s = .ok (b, s') → LoopSays M cl l ls used i s b s'
  | [], i, s, b, s', hs, I, h => by
    rw [subsLoop] at h
    injection h with h; injection h with e1 e2; subst e1; subst e2
    refine ⟨.refl I, fun hb => (by cases hb), fun θ j js hij _ hS => ?_⟩
    cases hS.maps with
    | cons hm _ =>
      obtain ⟨l2, h2, _⟩ := hm
      have h1 := (List.getElem?_eq_some_iff.1 h2).1
      have h3 : cl.length ≤ i := List.drop_eq_nil_iff.1 hs.symm
      omega
  | l2 :: suf, i, s, b, s', hs, I, h => by
    have hg : cl[i]? = some l2 := by
      have := congrArg (fun z => z[0]?) hs
      simp only [List.getElem?_drop] at this
      simpa using this.symm
    have hsuf : suf = cl.drop (i + 1) := by
      have := congrArg List.tail hs
      simpa [List.tail_drop] using this
    have hl2 : Fine M l2.atom := hcl l2 (List.mem_of_getElem? hg)
    have next : ∀ (b : Bool) (s' : St), subsLoop M k l used (i + 1) suf s = .ok (b, s') →
        (∀ θ js, Binds M θ s → ¬ Sol M θ cl used (l :: ls) (i :: js)) → LoopSays M cl l ls used i s b s' := by
      intro b s' h hno
      have P := subsLoop_says hk hl hcl suf (i + 1) s b s' hsuf I h
      refine ⟨P.grows, P.sound, fun θ j js hij hb hS => ?_⟩
      by_cases e : j = i
      · subst e; exact absurd hS (hno θ js hb)
      · exact P.complete θ j js (by omega) hb hS
    rw [subsLoop] at h
    by_cases hc : (used.getD i true || l.neg != l2.neg) = true
    · rw [if_pos hc] at h
      refine next b s' h fun θ js _ hS => ?_
      have hu := hS.free i (by simp)
      cases hS.maps with
      | cons hm _ =>
        obtain ⟨c, hc1, hc2, _⟩ := hm
        rw [hg] at hc1
        injection hc1 with hc1
        subst hc1
        rw [hu, hc2] at hc
        simp at hc
    · rw [if_neg hc] at h
      have hu : used.getD i true = false := by
        cases hu : used.getD i true with
        | false => rfl
        | true => rw [hu] at hc; simp at hc
      have hneg : l.neg = l2.neg := by
        rw [hu] at hc; simpa using hc
      obtain ⟨⟨b1, s1⟩, hr, h⟩ := bind_eq_ok h
      have P := matchTerm_says l.atom l2.atom s b1 s1 hl hl2 I hr
      cases b1 with
      | false =>
        rw [if_neg (by simp)] at h
        rw [grows_undo I P.grows] at h
        refine next b s' h fun θ js hb hS => ?_
        cases hS.maps with
        | cons hm _ =>
          obtain ⟨c, hc1, hc2, hc3⟩ := hm
          rw [hg] at hc1
          injection hc1 with hc1
          subst hc1
          exact absurd (P.complete θ hb hc3).1 (by simp)
      | true =>
        rw [if_pos rfl] at h
        obtain ⟨⟨b2, s2⟩, hr2, h⟩ := bind_eq_ok h
        have Q := hk _ _ _ _ P.grows.inv hr2
        have G := P.grows.trans Q.grows
        have hno : b2 = false → ∀ θ js, Binds M θ s → ¬ Sol M θ cl used (l :: ls) (i :: js) := by
          intro hb2 θ js hb hS
          have hm := hS.maps
          cases hm with
          | cons hm _ =>
            obtain ⟨c, hc1, hc2, hc3⟩ := hm
            rw [hg] at hc1
            injection hc1 with hc1
            subst hc1
            have := Q.complete θ js (P.complete θ hb hc3).2 hS.tail
            rw [hb2] at this
            cases this
        cases b2 with
        | true =>
          rw [if_pos rfl] at h
          injection h with h; injection h with e1 e2; subst e1; subst e2
          refine ⟨G, fun _ => ?_, fun _ _ _ _ _ _ => rfl⟩
          obtain ⟨js, hjs⟩ := Q.sound rfl
          exact ⟨i, js, fun θ ht => .cons ⟨l2, hg, hneg, P.sound rfl θ (Q.grows.binds ht)⟩ hu (hjs θ ht)⟩
        | false =>
          rw [if_neg (by simp)] at h
          simp only [grows_undo I G] at h
          by_cases hst : s.stack.length = s1.stack.length
          · rw [if_pos hst] at h
            injection h with h; injection h with e1 e2; subst e1; subst e2
            refine ⟨.refl I, fun hb => (by cases hb), fun θ j js _ hb hS => ?_⟩
            have es := stack_same I P.grows hst
            have hm : Maps M θ cl l i := ⟨l2, hg, hneg, P.sound rfl θ (by rw [es]; exact hb)⟩
            obtain ⟨js', hS'⟩ := hS.swap hm hu
            exact absurd hS' (hno rfl θ js' hb)
          · rw [if_neg hst] at h
            exact next b s' h (hno rfl)

theorem subsAux_says {M : Mem} {cl : List Lit} (hcl : ∀ l : Lit, l ∈ cl → Fine M l.atom) :
    ∀ (ls : List Lit) (used : List Bool) (s : St) (b : Bool) (s' : St), ls ≠ [] → (∀ l : Lit, l ∈ ls → Fine M l.atom) → MInv M s →
    subsAux M cl ls used s = .ok (b, s') → AuxSays M cl ls used s b s'
  | [], _, _, _, _, hne, _, _, _ => absurd rfl hne
  | l :: ls, used, s, b, s', _, hls, I, h => by
    rw [subsAux] at h
    have P : LoopSays M cl l ls used 0 s b s' := by
      refine subsLoop_says (ls := ls) ?_ (hls l (by simp)) hcl cl 0 s b s' (by simp) I h
      intro used s b s' I h
      cases ls with
      | nil =>
        injection h with h; injection h with e1 e2; subst e1; subst e2
        exact ⟨.refl I, fun _ => ⟨[], fun θ _ => ⟨.nil, List.nodup_nil, by simp⟩⟩, fun _ _ _ _ => rfl⟩
      | cons l' ls' =>
        exact subsAux_says hcl (l' :: ls') used s b s' (by simp) (fun l hl => hls l (by simp [hl])) I h
    refine ⟨P.grows, fun hb => ?_, fun θ js hb hS => ?_⟩
    · obtain ⟨j, js, hj⟩ := P.sound hb
      exact ⟨j :: js, hj⟩
    · cases js with
      | nil => cases hS.maps
      | cons j js => exact P.complete θ j js (by omega) hb hS

theorem Subsumes.length {M : Mem} {c1 c2 : Clause} (h : Subsumes M c1 c2) : c1.lits.length ≤ c2.lits.length := by
  obtain ⟨θ, js, hm, hn⟩ := h
  have h1 := hm.length_eq
  have h2 : js ⊆ List.range c2.lits.length := by
    intro j hj
    rw [List.mem_range]
    have : ∀ (ls : List Lit) (js : List Nat), List.Forall₂ (Maps M θ c2.lits) ls js → ∀ j, j ∈ js → j < c2.lits.length := by
      intro ls js h
      induction h with
      | nil => intro j hj; cases hj
      | cons hm _ ih =>
        intro j hj
        rcases List.mem_cons.1 hj with e | hj
        · obtain ⟨l2, h2, _⟩ := hm
          rw [e]
          exact (List.getElem?_eq_some_iff.1 h2).1
        · exact ih j hj
    exact this _ _ hm j hj
  have := (List.subperm_of_subset hn h2).length_le
  rw [List.length_range] at this
  omega

theorem ground_subst (θ : Nat → Tree) : ∀ (t : Tree), t.Ground → t.subst θ = t
  | .var _, h => by rw [Tree.Ground] at h; exact h.elim
  | .con _, _ => rfl
  | .app ts, h => by
    rw [Tree.Ground] at h
    rw [Tree.subst, groundL ts h]
where
  groundL : ∀ (ts : List Tree), Tree.GroundL ts → Tree.substL θ ts = ts
    | [], _ => rfl
    | t :: ts, h => by
      rw [Tree.GroundL] at h
      rw [Tree.substL, ground_subst θ t h.1, groundL ts h.2]

theorem subsumes_one {M : Mem} {c1 c2 : Clause} {l : Lit} (h : c1.lits = [l]) :
    Subsumes M c1 c2 ↔ ∃ l2, l2 ∈ c2.lits ∧ l.neg = l2.neg ∧ ∃ θ, (tree M l.atom).subst θ = tree M l2.atom := by
  rw [Subsumes, h]
  constructor
  · rintro ⟨θ, js, hm, _⟩
    cases hm with
    | cons hm _ =>
      obtain ⟨l2, h1, h2, h3⟩ := hm
      exact ⟨l2, List.mem_of_getElem? h1, h2, θ, h3⟩
  · rintro ⟨l2, h1, h2, θ, h3⟩
    obtain ⟨j, hj⟩ := List.getElem?_of_mem h1
    exact ⟨θ, [j], .cons ⟨l2, hj, h2, h3⟩ .nil, List.nodup_singleton j⟩

/-- One match, from a clear bank. -/
theorem match_clear {M : Mem} {x y : Term} {b : Bool} {s' : St} (hx : Fine M x) (hy : Fine M y)
    (h : matchTerm M x y St.clear = .ok (b, s')) : s'.clearStack = St.clear ∧ (b = true ↔ ∃ θ, (tree M x).subst θ = tree M y) := by
  have P := matchTerm_says x y _ _ _ hx hy (minv_clear M) h
  refine ⟨clearStack_eq P.grows.inv, fun hb => ⟨_, P.sound hb _ (subst_binds M s')⟩, ?_⟩
  rintro ⟨θ, hθ⟩
  exact (P.complete θ (fun n t h => by cases h) hθ).1

theorem factLoop_says {M : Mem} {a : Term} (ha : Fine M a) : ∀ (ls : List Lit) (b : Bool), (∀ l : Lit, l ∈ ls → Fine M l.atom) →
    factLoop M a ls = .ok b → (b = true ↔ ∃ l, l ∈ ls ∧ l.neg = false ∧ tree M a = tree M l.atom)
  | [], b, _, h => by
    rw [factLoop] at h; injection h with h; subst h; simp
  | l :: ls, b, hls, h => by
    rw [factLoop] at h
    have ih := factLoop_says ha ls b (fun l hl => hls l (by simp [hl]))
    by_cases hn : l.neg = true
    · rw [if_pos hn] at h
      rw [ih h]
      simp [hn]
    · rw [if_neg hn] at h
      obtain ⟨b', hr, h⟩ := bind_eq_ok h
      have he := equalTerm_iff ha (hls l (by simp))
      cases b' with
      | true =>
        rw [if_pos rfl] at h
        injection h with h; subst h
        exact ⟨fun _ => ⟨l, by simp, by simpa using hn, he.1 hr⟩, fun _ => rfl⟩
      | false =>
        rw [if_neg (by simp)] at h
        rw [ih h]
        have : tree M a ≠ tree M l.atom := fun e => by
          have := he.2 e
          rw [hr] at this
          injection this with this
          cases this
        simp [this]

theorem unitLoop_says {M : Mem} {l1 : Lit} (ha : Fine M l1.atom) : ∀ (ls : List Lit) (b : Bool) (s' : St),
    (∀ l : Lit, l ∈ ls → Fine M l.atom) → unitLoop M l1 ls St.clear = .ok (b, s') →
    s' = St.clear ∧ (b = true ↔ ∃ l2, l2 ∈ ls ∧ l1.neg = l2.neg ∧ ∃ θ, (tree M l1.atom).subst θ = tree M l2.atom)
  | [], b, s', _, h => by
    rw [unitLoop] at h; injection h with h; injection h with e1 e2; subst e1; subst e2; simp
  | l :: ls, b, s', hls, h => by
    rw [unitLoop] at h
    have ih := unitLoop_says ha ls b s' (fun l hl => hls l (by simp [hl]))
    by_cases hn : (l1.neg != l.neg) = true
    · rw [if_pos hn] at h
      refine ⟨(ih h).1, ?_⟩
      rw [(ih h).2]
      have : l1.neg ≠ l.neg := by simpa using hn
      simp [this]
    · rw [if_neg hn] at h
      have hne : l1.neg = l.neg := by simpa using hn
      obtain ⟨⟨b', s1⟩, hr, h⟩ := bind_eq_ok h
      obtain ⟨hs1, hb⟩ := match_clear ha (hls l (by simp)) hr
      cases b' with
      | true =>
        rw [if_pos rfl] at h
        injection h with h; injection h with e1 e2; subst e1; subst e2
        exact ⟨hs1, fun _ => ⟨l, by simp, hne, hb.1 rfl⟩, fun _ => rfl⟩
      | false =>
        rw [if_neg (by simp)] at h
        simp only [hs1] at h
        refine ⟨(ih h).1, ?_⟩
        rw [(ih h).2]
        constructor
        · rintro ⟨l2, h1, h2⟩; exact ⟨l2, by simp [h1], h2⟩
        · rintro ⟨l2, h1, h2, h3⟩
          rcases List.mem_cons.1 h1 with e | h1
          · subst e; exact absurd (hb.2 h3) (by simp)
          · exact ⟨l2, h1, h2, h3⟩

theorem subsume_says {M : Mem} {c1 c2 : Clause} (h1 : c1.Fine M) (h2 : c2.Fine M) (hg : c1.FactGround M) (hne : c1.lits ≠ [])
    {b : Bool} {s' : St} (h : subsume M c1 c2 St.clear = .ok (b, s')) : s' = St.clear ∧ (b = true ↔ Subsumes M c1 c2) := by
  have long : ∀ (p : Bool × St), c2.lits.length < c1.lits.length → Res.ok p = Res.ok (b, s') → p = (false, St.clear) →
      s' = St.clear ∧ (b = true ↔ Subsumes M c1 c2) := by
    intro p hl h e
    rw [e] at h
    injection h with h; injection h with e1 e2; subst e1; subst e2
    refine ⟨rfl, fun hb => (by cases hb), fun hs => ?_⟩
    have := hs.length
    omega
  match c1, c2, h1, h2, hg, hne, h, long with
  | .fact a, .fact b', h1, h2, hg, _, h, _ =>
    rw [subsume] at h
    obtain ⟨r, hr, h⟩ := bind_eq_ok h
    injection h with h; injection h with e1 e2; subst e1; subst e2
    refine ⟨rfl, ?_⟩
    have he := equalTerm_iff (h1 ⟨false, a⟩ (by simp [Clause.lits])) (h2 ⟨false, b'⟩ (by simp [Clause.lits]))
    rw [hr] at he
    rw [subsumes_one (l := ⟨false, a⟩) rfl]
    have : r = true ↔ tree M a = tree M b' := by
      rw [← he]; constructor
      · intro h; rw [h]
      · intro h; injection h
    rw [this]
    constructor
    · intro e
      exact ⟨⟨false, b'⟩, by simp [Clause.lits], rfl, Tree.var, by rw [ground_subst _ _ hg]; exact e⟩
    · rintro ⟨l2, hm, _, θ, he⟩
      simp only [Clause.lits, List.mem_singleton] at hm
      subst hm
      rwa [ground_subst _ _ hg] at he
  | .fact a, .rule ls, h1, h2, hg, _, h, _ =>
    rw [subsume] at h
    obtain ⟨r, hr, h⟩ := bind_eq_ok h
    injection h with h; injection h with e1 e2; subst e1; subst e2
    refine ⟨rfl, ?_⟩
    rw [factLoop_says (h1 ⟨false, a⟩ (by simp [Clause.lits])) ls r h2 hr, subsumes_one (l := ⟨false, a⟩) rfl]
    constructor
    · rintro ⟨l, hl, hn, he⟩
      exact ⟨l, hl, hn.symm, Tree.var, by rw [ground_subst _ _ hg]; exact he⟩
    · rintro ⟨l, hl, hn, θ, he⟩
      exact ⟨l, hl, hn.symm, by rwa [ground_subst _ _ hg] at he⟩
  | .rule [], c2, _, _, _, hne, _, _ => exact absurd rfl hne
  | .rule [l], .fact b', h1, h2, _, _, h, _ =>
    rw [subsume] at h
    rw [subsumes_one (l := l) rfl]
    by_cases hn : l.neg = true
    · rw [if_pos hn] at h
      injection h with h; injection h with e1 e2; subst e1; subst e2
      simp [Clause.lits, hn]
    · rw [if_neg hn] at h
      obtain ⟨⟨r, s1⟩, hr, h⟩ := bind_eq_ok h
      injection h with h; injection h with e1 e2; subst e1; subst e2
      obtain ⟨hs, hb⟩ := match_clear (h1 l (by simp [Clause.lits])) (h2 ⟨false, b'⟩ (by simp [Clause.lits])) hr
      refine ⟨hs, ?_⟩
      have hn' : l.neg = false := by simpa using hn
      rw [hb]
      simp [Clause.lits, hn']
  | .rule (l1 :: l2 :: ls), .fact b', h1, h2, _, _, h, long =>
    rw [subsume] at h
    · exact long _ (by simp [Clause.lits]) h rfl
    all_goals (intros; simp_all)
  | .rule [l], .rule ls, h1, h2, _, _, h, _ =>
    rw [subsume] at h
    rw [subsumes_one (l := l) rfl]
    exact unitLoop_says (h1 l (by simp [Clause.lits])) ls b s' h2 h
  | .rule (l1 :: l2 :: ks), .rule ls, h1, h2, _, hne, h, long =>
    rw [subsume] at h
    · by_cases hl : (l1 :: l2 :: ks).length > ls.length
      · rw [if_pos hl] at h; exact long _ hl h rfl
      · rw [if_neg hl] at h
        obtain ⟨⟨r, s1⟩, hr, h⟩ := bind_eq_ok h
        injection h with h; injection h with e1 e2; subst e1; subst e2
        have P := subsAux_says h2 _ _ _ _ _ hne h1 (minv_clear M) hr
        refine ⟨clearStack_eq P.grows.inv, fun hb => ?_, ?_⟩
        · obtain ⟨js, hj⟩ := P.sound hb
          have := hj _ (subst_binds M s1)
          exact ⟨_, js, this.maps, this.nodup⟩
        · rintro ⟨θ, js, hm, hn⟩
          refine P.complete θ js (fun n t h => by cases h) ⟨hm, hn, ?_⟩
          intro j hj
          obtain ⟨l, _, hl⟩ : ∃ l, l ∈ (l1 :: l2 :: ks) ∧ Maps M θ ls l j := by
            obtain ⟨k, hk⟩ := List.getElem?_of_mem hj
            have hlen := hm.length_eq
            have hk' := (List.getElem?_eq_some_iff.1 hk)
            obtain ⟨hk1, hk2⟩ := hk'
            refine ⟨(l1 :: l2 :: ks)[k]'(by simp only [Clause.lits] at hlen; omega), List.getElem_mem _, ?_⟩
            have := hm.get (i := k) (by simp only [Clause.lits] at hlen ⊢; omega) hk1
            rw [← hk2]
            exact this
          obtain ⟨l3, h3, _⟩ := hl
          have := (List.getElem?_eq_some_iff.1 h3).1
          simp [List.getD_eq_getElem?_getD, List.getElem?_replicate, this]
    all_goals (intros; simp_all)

end WG.Reason
