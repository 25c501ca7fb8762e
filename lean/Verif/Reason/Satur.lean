import Verif.Reason.Keep

/-! # Saturation -/
namespace WG.Reason

/-- Both a thing and its negation are in the list. -/
def Taut (K : List (Bool × Tree)) : Prop := ∃ T, (true, T) ∈ K ∧ (false, T) ∈ K

/-- One of the clauses has an instance within the list, and is not too long. -/
def Cov (M : Mem) (A : Alg Tree) (ds : List Clause) (K : List (Bool × Tree)) (m : Nat) : Prop :=
  ∃ d : Clause, d ∈ ds ∧ d.lits.length ≤ m ∧ ∃ ρ, ∀ l : Lit, l ∈ d.lits → (l.neg, ev M A ρ l.atom) ∈ K

/-- Nothing is lost. -/
def Keeps (M : Mem) (A : Alg Tree) (ds ds' : List Clause) : Prop := ∀ K m, Cov M A ds K m → Cov M A ds' K m

structure Sat (cfg : Cfg) (M : Mem) (A : Alg Tree) (cs : List Clause) (s : Sys) : Prop where
  low : ∀ c : Clause, c ∈ s.passive → Low c.lits ∧ HornL c.lits
  act : ∀ c : Clause, c ∈ s.active → HornL c.lits ∧ ∀ l : Lit, l ∈ c.lits → InBank 2 (vars l.atom)
  tab : ∀ c : Clause, c ∈ s.active → ∀ l : Lit, l ∈ chosen cfg false c → ∃ k, funHash cfg l.atom = .ok k ∧
    (k, l.atom, c) ∈ if l.neg then s.neg else s.pos
  epos : ∀ e : Nat × Term × Clause, e ∈ s.pos → e.2.2 ∈ s.active
  eneg : ∀ e : Nat × Term × Clause, e ∈ s.neg → e.2.2 ∈ s.active
  pairs : ∀ P : Clause, P ∈ s.active → ∀ a, P.lits = [⟨false, a⟩] → ∀ c : Clause, c ∈ s.active → ∀ pre x post, c.lits = pre ++ ⟨true, x⟩ :: post →
    (∀ l : Lit, l ∈ pre → l.neg = false) → ∀ σ τ, ev M A τ a = ev M A σ x →
    Taut (meaning M A σ (pre ++ post)) ∨ Cov M A (s.passive ++ s.active) (meaning M A σ (pre ++ post)) (pre.length + post.length)
  inputs : ∀ c : Clause, c ∈ cs → ∀ ρ, Cov M A (s.passive ++ s.active) (meaning M A ρ c.lits) c.lits.length

theorem Cov.mono {M : Mem} {A : Alg Tree} {ds : List Clause} {K K' : List (Bool × Tree)} {m : Nat} (h : Cov M A ds K m)
    (hk : ∀ p, p ∈ K → p ∈ K') : Cov M A ds K' m := by
  obtain ⟨d, h1, h2, ρ, h3⟩ := h
  exact ⟨d, h1, h2, ρ, fun l hl => hk _ (h3 l hl)⟩

theorem Cov.sub {M : Mem} {A : Alg Tree} {ds ds' : List Clause} {K : List (Bool × Tree)} {m : Nat} (h : Cov M A ds K m)
    (hk : ∀ p : Clause, p ∈ ds → p ∈ ds') : Cov M A ds' K m := by
  obtain ⟨d, h1, h2⟩ := h
  exact ⟨d, hk d h1, h2⟩

/-! ## The chosen literals -/

theorem choose_first {cfg : Cfg} {all posok : Bool} {l : Lit} (hl : l.neg = true) : ∀ (pre post : List Lit), (∀ k : Lit, k ∈ pre → k.neg = false) →
    l ∈ choose cfg all posok true false (pre ++ l :: post)
  | [], post, _ => by
    rw [List.nil_append, choose, if_pos (by simp [hl])]
    simp
  | k :: pre, post, h => by
    have ih := choose_first (cfg := cfg) (all := all) (posok := posok) hl pre post fun k hk => h k (by simp [hk])
    rw [List.cons_append, choose]
    have hk := h k (by simp)
    split
    · rw [hk]; exact List.mem_cons_of_mem _ ih
    · exact ih

theorem chosen_first {cfg : Cfg} (hp : cfg.pospref = false) {c : Clause} {x : Term} {pre post : List Lit} (h : c.lits = pre ++ ⟨true, x⟩ :: post)
    (hpre : ∀ k : Lit, k ∈ pre → k.neg = false) : ⟨true, x⟩ ∈ chosen cfg false c := by
  cases c with
  | fact a =>
    exfalso
    simp only [Clause.lits] at h
    match pre, h with
    | [], h => injection h with h _; injection h with h _; cases h
    | _ :: pre, h => injection h with _ h; simp at h
  | rule ls =>
    simp only [Clause.lits] at h
    subst h
    simp only [chosen, hp, Bool.false_and, Bool.not_false]
    exact choose_first rfl pre post hpre

theorem chosen_unit {cfg : Cfg} {c : Clause} {a : Term} (h : c.lits = [⟨false, a⟩]) : ⟨false, a⟩ ∈ chosen cfg false c := by
  cases c with
  | fact b => rw [Clause.lits] at h; simp only [chosen]; rw [h]; simp
  | rule ls =>
    simp only [Clause.lits] at h
    subst h
    simp [chosen, choose]

/-! ## Variants -/

theorem variant_cells {M M' : Mem} (h : Cells M M') {A : Alg Tree} {c c' : Clause} (v : Variant M' A c c') : Variant M A c c' := by
  constructor
  · intro ρ
    obtain ⟨ρ', e⟩ := v.forth ρ
    rw [meaning_cells h, meaning_cells h] at e
    exact ⟨ρ', e⟩
  · intro ρ
    obtain ⟨ρ', e⟩ := v.back ρ
    rw [meaning_cells h, meaning_cells h] at e
    exact ⟨ρ', e⟩

theorem Variant.signs {M : Mem} {A : Alg Tree} {c c' : Clause} (v : Variant M A c c') : c'.lits.map Lit.neg = c.lits.map Lit.neg := by
  obtain ⟨ρ', e⟩ := v.forth Tree.var
  have := congrArg (List.map Prod.fst) e
  simp only [meaning, List.map_map] at this
  exact this

theorem Variant.length {M : Mem} {A : Alg Tree} {c c' : Clause} (v : Variant M A c c') : c'.lits.length = c.lits.length := by
  have := congrArg List.length v.signs
  simpa using this

theorem Variant.horn {M : Mem} {A : Alg Tree} {c c' : Clause} (v : Variant M A c c') (h : HornL c.lits) : HornL c'.lits := by
  have e := v.signs
  have key : ∀ ls : List Lit, cnt (fun n => !n) ls = (ls.map Lit.neg).countP fun n => !n := by
    intro ls; rw [List.countP_map]; rfl
  rw [HornL, key, e, ← key]; exact h

theorem meaning_mem {M : Mem} {A : Alg Tree} {ρ : Nat → Tree} {ls : List Lit} {l : Lit} (h : l ∈ ls) :
    (l.neg, ev M A ρ l.atom) ∈ meaning M A ρ ls := List.mem_map_of_mem h

theorem variant_cov {M : Mem} {A : Alg Tree} {c c' : Clause} (v : Variant M A c c') (ρ : Nat → Tree) :
    ∃ ρ', ∀ l : Lit, l ∈ c'.lits → (l.neg, ev M A ρ' l.atom) ∈ meaning M A ρ c.lits := by
  obtain ⟨ρ', e⟩ := v.forth ρ
  exact ⟨ρ', fun l hl => by rw [← e]; exact meaning_mem hl⟩

/-- A clause in the queue is replaced by a variant of it, or by one that subsumes it. -/
theorem keeps_head {M : Mem} {A : Alg Tree} {c d : Clause} {rest act act' : List Clause} (hd : d ∈ act') (ha : ∀ e : Clause, e ∈ act → e ∈ act')
    (hl : d.lits.length ≤ c.lits.length) (h : ∀ ρ, ∃ ρ', ∀ l : Lit, l ∈ d.lits → (l.neg, ev M A ρ' l.atom) ∈ meaning M A ρ c.lits) :
    Keeps M A (c :: rest ++ act) (rest ++ act') := by
  rintro K m ⟨e, h1, h2, ρ, h3⟩
  rcases List.mem_append.1 h1 with h1 | h1
  · rcases List.mem_cons.1 h1 with h1 | h1
    · subst h1
      obtain ⟨ρ', h'⟩ := h ρ
      refine ⟨d, List.mem_append_right _ hd, Nat.le_trans hl h2, ρ', fun l hm => ?_⟩
      obtain ⟨k, hk, e⟩ := List.mem_map.1 (h' l hm)
      rw [← e]
      exact h3 k hk
    · exact ⟨e, List.mem_append_left _ h1, h2, ρ, h3⟩
  · exact ⟨e, List.mem_append_right _ (ha e h1), h2, ρ, h3⟩

/-! ## Subsumption -/

theorem forall2_mem {α β : Type} {R : α → β → Prop} {xs : List α} {ys : List β} (h : List.Forall₂ R xs ys) {x : α} (hx : x ∈ xs) : ∃ y, R x y := by
  induction h with
  | nil => cases hx
  | cons h1 h2 ih =>
    rcases List.mem_cons.1 hx with e | hx
    · subst e; exact ⟨_, h1⟩
    · exact ih hx

theorem subsume_cov {M : Mem} {A : Alg Tree} (hA : Herb M A) {d c : Clause} (fd : d.Fine M) (fc : c.Fine M) (pd : d.Plain) (pc : c.Plain)
    {s' : St} (h : subsume M d c St.clear = .ok (true, s')) :
    d.lits.length ≤ c.lits.length ∧ ∀ ρ, ∃ ρ', ∀ l : Lit, l ∈ d.lits → (l.neg, ev M A ρ' l.atom) ∈ meaning M A ρ c.lits := by
  have one : ∀ a b, d = .fact a → ⟨false, b⟩ ∈ c.lits → tree M a = tree M b →
      d.lits.length ≤ c.lits.length ∧ ∀ ρ, ∃ ρ', ∀ l : Lit, l ∈ d.lits → (l.neg, ev M A ρ' l.atom) ∈ meaning M A ρ c.lits := by
    intro a b e hb ht
    subst e
    refine ⟨?_, fun ρ => ⟨ρ, fun l hl => ?_⟩⟩
    · simp only [Clause.lits, List.length_singleton]
      exact List.length_pos_of_mem hb
    · simp only [Clause.lits, List.mem_singleton] at hl
      subst hl
      simp only
      rw [eval_tree A ρ ht]
      exact meaning_mem hb
  match d, c, fd, fc, h, one with
  | .fact a, .fact b, fd, fc, h, one =>
    rw [subsume] at h
    obtain ⟨r, hr, h⟩ := bind_eq_ok h
    injection h with h; injection h with h _; subst h
    exact one a b rfl (by simp [Clause.lits]) ((equalTerm_iff (fd ⟨false, a⟩ (by simp [Clause.lits])) (fc ⟨false, b⟩ (by simp [Clause.lits]))).1 hr)
  | .fact a, .rule ls, fd, fc, h, one =>
    rw [subsume] at h
    obtain ⟨r, hr, h⟩ := bind_eq_ok h
    injection h with h; injection h with h _; subst h
    obtain ⟨l, h1, h2, h3⟩ := (factLoop_says (fd ⟨false, a⟩ (by simp [Clause.lits])) ls true fc hr).1 rfl
    refine one a l.atom rfl ?_ h3
    rw [← h2]; exact h1
  | .rule ks, c, fd, fc, h, _ =>
    have hs := ((subsume_says fd fc (by simp [Clause.FactGround]) pd.1 h).2).1 rfl
    refine ⟨hs.length, fun ρ => ?_⟩
    obtain ⟨θ, js, hm, _⟩ := hs
    refine ⟨fun n => (θ n).subst ρ, fun l hl => ?_⟩
    obtain ⟨j, l2, h1, h2, h3⟩ := forall2_mem hm hl
    have hl2 := List.mem_of_getElem? h1
    rw [hA.atom _ (pd.2 l hl), ev_tree, ← subst_subst, h3, h2, ← ev_tree, ← hA.atom _ (pc.2 l2 hl2)]
    exact meaning_mem hl2

theorem givenSubsumed_cov {M : Mem} {A : Alg Tree} (hA : Herb M A) {c : Clause} (fc : c.Fine M) (pc : c.Plain) : ∀ (ds : List Clause) (s' : St),
    (∀ d : Clause, d ∈ ds → d.Fine M ∧ d.Plain) → givenSubsumed M c ds St.clear = .ok (true, s') →
    ∃ d : Clause, d ∈ ds ∧ d.lits.length ≤ c.lits.length ∧ ∀ ρ, ∃ ρ', ∀ l : Lit, l ∈ d.lits → (l.neg, ev M A ρ' l.atom) ∈ meaning M A ρ c.lits
  | [], s', _, h => by injection h with h; injection h with h _; cases h
  | d :: ds, s', hds, h => by
    rw [givenSubsumed] at h
    obtain ⟨⟨r, s1⟩, hr, h⟩ := bind_eq_ok h
    obtain ⟨fd, pd⟩ := hds d (by simp)
    cases r with
    | true => exact ⟨d, by simp, subsume_cov hA fd fc pd pc hr⟩
    | false =>
      rw [if_neg (by simp)] at h
      have e := subsume_clear fd fc hr
      subst e
      obtain ⟨d', h1, h2⟩ := givenSubsumed_cov hA fc pc ds s' (fun d hd => hds d (by simp [hd])) h
      exact ⟨d', by simp [h1], h2⟩

end WG.Reason
