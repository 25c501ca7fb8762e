import Verif.Reason.Unify

/-! # Unification ends -/
namespace WG.Reason

/-- Sizes of terms. -/
def natAlg : Alg Nat := ⟨fun _ => 1, fun ds => 1 + ds.sum⟩

theorem nat_part {M : Mem} {ρ : Nat → Nat} {a : Nat} {ts : List Term} {t : Term} (h : t ∈ ts) :
    ev M natAlg ρ t < ev M natAlg ρ (.app a ts) := by
  have : ev M natAlg ρ t ≤ (evL M natAlg ρ ts).sum := by
    induction ts with
    | nil => cases h
    | cons u us ih =>
      simp only [evL, List.sum_cons]
      rcases List.mem_cons.1 h with h | h
      · subst h; omega
      · have := ih h; omega
  show _ < 1 + _
  omega

theorem ends_bind {α β : Type} {c : Nat → Res α} {k : Nat → α → Res β} {a : α} {b : β} (h : Ends c a) (hk : Ends (fun f => k f a) b) :
    Ends (fun f => (c f).bind (k f)) b := by
  obtain ⟨N, h⟩ := h
  obtain ⟨K, hk⟩ := hk
  refine ⟨max N K, fun f hf => ?_⟩
  show (c f).bind (k f) = _
  rw [h f (by omega), bind_ok]
  exact hk f (by omega)

theorem ends_const {α : Type} (a : α) : Ends (fun _ => Res.ok a) a := ⟨0, fun _ _ => rfl⟩

theorem ends_succ {α : Type} {c : Nat → Res α} {d : Nat → Res α} {a : α} (hd : ∀ f, d (f + 1) = c f) (h : Ends c a) : Ends d a := by
  obtain ⟨N, h⟩ := h
  refine ⟨N + 1, fun f hf => ?_⟩
  obtain ⟨g, rfl⟩ : ∃ g, f = g + 1 := ⟨f - 1, by omega⟩
  rw [hd]
  exact h g (by omega)

theorem ends_if {α : Type} {b : Bool} {c d : Nat → Res α} {r : Bool → α} (hc : b = true → Ends c (r true)) (hd : b = false → Ends d (r false)) :
    Ends (fun f => if b then c f else d f) (r b) := by
  cases b with
  | true => simpa using hc rfl
  | false => simpa using hd rfl

theorem occLoop_ends {M : Mem} {s : St} (I : Inv M s) {n : Nat} : ∀ ts : List Term, (∀ t, t ∈ ts → Fine M t) →
    (∀ t u, t ∈ ts → Deref M s t u → u.isRec = true → ∃ b, Ends (fun f => occurs f s n u) b) →
    ∃ b, Ends (fun f => occLoop (deref f s) (occurs f s n) n ts) b
  | [], _, _ => ⟨false, ends_const _⟩
  | t :: ts, hf, ho => by
    obtain ⟨u, hu⟩ := deref_ends I (hf t (by simp))
    have d : Deref M s t u := by
      obtain ⟨N, h⟩ := hu
      exact deref_ok I (hf t (by simp)) (h N (Nat.le_refl _))
    obtain ⟨b, hb⟩ := occLoop_ends I (n := n) ts (fun t ht => hf t (by simp [ht])) (fun t u ht => ho t u (by simp [ht]))
    by_cases hs : (Term.var n).same u = true
    · refine ⟨true, ends_bind (k := fun f t => if (Term.var n).same t then Res.ok true
        else if t.isRec then (occurs f s n t).bind fun b => if b then .ok true else occLoop (deref f s) (occurs f s n) n ts
        else occLoop (deref f s) (occurs f s n) n ts) hu ?_⟩
      simp only [hs, if_true]
      exact ends_const _
    · by_cases hi : u.isRec = true
      · obtain ⟨o, ho'⟩ := ho t u (by simp) d hi
        refine ⟨if o then true else b, ends_bind (k := fun f t => if (Term.var n).same t then Res.ok true
          else if t.isRec then (occurs f s n t).bind fun b => if b then .ok true else occLoop (deref f s) (occurs f s n) n ts
          else occLoop (deref f s) (occurs f s n) n ts) hu ?_⟩
        simp only [hs, hi, if_true]
        refine ends_bind (k := fun f b => if b then Res.ok true else occLoop (deref f s) (occurs f s n) n ts) ho' ?_
        cases o with
        | true => exact ends_const _
        | false => exact hb
      · refine ⟨b, ends_bind (k := fun f t => if (Term.var n).same t then Res.ok true
          else if t.isRec then (occurs f s n t).bind fun b => if b then .ok true else occLoop (deref f s) (occurs f s n) n ts
          else occLoop (deref f s) (occurs f s n) n ts) hu ?_⟩
        simp only [hs, hi]
        exact hb

theorem occurs_ends {M : Mem} {s : St} (I : Inv M s) {n : Nat} {ρ : Nat → Nat} (hr : Resp M natAlg ρ s) : ∀ (m : Nat) (y : Term),
    ev M natAlg ρ y < m → Fine M y → y.isRec = true → ∃ b, Ends (fun f => occurs f s n y) b
  | 0, _, h, _, _ => absurd h (Nat.not_lt_zero _)
  | m + 1, y, h, hy, hi => by
    cases hy with
    | var _ => cases hi
    | con _ => cases hi
    | @app a ts h1 h2 =>
      obtain ⟨b, hb⟩ := occLoop_ends I (n := n) ts h2 (fun t u ht d hi => occurs_ends I hr m u (by
        have := nat_part (M := M) (ρ := ρ) (a := a) ht
        rw [d.eval Nat natAlg ρ hr] at this
        omega) d.fine hi)
      exact ⟨b, ends_succ (fun f => rfl) hb⟩

theorem bindRec_ends {M : Mem} {s : St} (I : Inv M s) {n : Nat} {t : Term} (hn : n < NV) (hb : s.bank n = none) (hf : Fine M t)
    (hi : t.isRec = true) : ∃ r, Ends (fun f => bindRec (occurs f s n) s n t) r := by
  obtain ⟨ρ, hr, _⟩ := exists_resp (M := M) I.wf natAlg (fun _ => 1)
  obtain ⟨o, ho⟩ := occurs_ends I (n := n) hr _ t (Nat.lt_succ_self _) hf hi
  refine ⟨if o then (false, s) else (true, s.upd n t), ?_⟩
  unfold bindRec
  refine ends_bind (k := fun f b => if b then Res.ok (false, s) else (s.set n t).bind fun s => Res.ok (true, s)) ho ?_
  cases o with
  | true => exact ends_const _
  | false => rw [set_ok I hn hb]; exact ends_const _

theorem ladder_ends {M : Mem} {s : St} (I : Inv M s) {u : Nat → St → Term → Term → Res (Bool × St)} {x y : Term}
    (hx : Fine M x) (hy : Fine M y) (ux : ∀ m, x = .var m → s.bank m = none) (uy : ∀ m, y = .var m → s.bank m = none)
    (hl : ∀ a ts us, x = .app a ts → (∀ t, t ∈ us → Fine M t) → ∃ r, Ends (fun f => unifyLoop (u f) s ts us) r) :
    ∃ r, Ends (fun f => ladder M (occurs f s) (u f) s x y) r := by
  cases hx with
  | @var n hn =>
    have hb := ux n rfl
    cases hy with
    | @var m hm => exact ⟨_, by simp only [ladder, set_ok I hn hb, bind_ok]; exact ends_const _⟩
    | con c => exact ⟨_, by simp only [ladder, set_ok I hn hb, bind_ok]; exact ends_const _⟩
    | app h1 h2 => exact bindRec_ends I hn hb (.app h1 h2) rfl
  | con c =>
    cases hy with
    | @var m hm => exact ⟨_, by simp only [ladder, set_ok I hm (uy m rfl), bind_ok]; exact ends_const _⟩
    | con d => exact ⟨_, ends_const _⟩
    | app h1 h2 => exact ⟨_, ends_const _⟩
  | @app a ts h1 h2 =>
    cases hy with
    | @var m hm => exact bindRec_ends I hm (uy m rfl) (.app h1 h2) rfl
    | con d => exact ⟨_, ends_const _⟩
    | @app a' us h3 h4 =>
      show ∃ r, Ends (fun f => if ts.length ≠ us.length then .ok (false, s) else unifyLoop (u f) s ts us) r
      by_cases hlen : ts.length ≠ us.length
      · simp only [if_pos hlen]; exact ⟨_, ends_const _⟩
      · simp only [if_neg hlen]; exact hl a ts us rfl h4

/-- Number of variables without a binding. -/
def room (s : St) : Nat := NV - s.stack.length

theorem post_same {M : Mem} {s s' : St} {E : (D : Type) → Alg D → (Nat → D) → Prop} {b : Bool} (I : Inv M s) (P : Post M s E b s') :
    s' = s ∨ room s' < room s := by
  obtain ⟨new, hs⟩ := P.stack
  cases new with
  | nil =>
    left
    rw [List.nil_append] at hs
    have : s'.bank = s.bank := by
      funext n
      cases h : s.bank n with
      | some t => exact P.keep n t h
      | none =>
        cases h' : s'.bank n with
        | none => rfl
        | some t =>
          have := (P.inv.mem n).2 (by rw [h']; simp)
          rw [hs] at this
          exact absurd h ((I.mem n).1 this)
    cases s; cases s'; simp_all
  | cons v vs =>
    right
    have h1 := stack_le P.inv
    have h2 := congrArg List.length hs
    rw [List.length_append, List.length_cons] at h2
    unfold room
    omega

theorem ends_post {M : Mem} {s : St} {x y : Term} {r : Bool × St} (I : Inv M s) (hx : Fine M x) (hy : Fine M y)
    (h : Ends (fun f => unify M f s x y) r) : Post M s (EqT M x y) r.1 r.2 := by
  obtain ⟨N, h⟩ := h
  exact unify_post N s x y r.1 r.2 I hx hy (h N (Nat.le_refl _))

/-- Loops end if the calls in them do: for states with less room, whatever the words; for the state itself, for words of the list. -/
theorem loop_ends {M : Mem} (k : Nat) (hu : ∀ s x y, Inv M s → Fine M x → Fine M y → room s < k → ∃ r, Ends (fun f => unify M f s x y) r) :
    ∀ (ts us : List Term) (s : St), Inv M s → (∀ t, t ∈ ts → Fine M t) → (∀ t, t ∈ us → Fine M t) → room s ≤ k →
    (∀ t v, t ∈ ts → Fine M v → ∃ r, Ends (fun f => unify M f s t v) r) → ∃ r, Ends (fun f => unifyLoop (unify M f) s ts us) r
  | [], _, s, _, _, _, _, _ => ⟨_, ends_const _⟩
  | _ :: _, [], s, _, _, _, _, _ => ⟨_, ends_const _⟩
  | t :: ts, v :: vs, s, I, h1, h2, hk, he => by
    have g1 : ∀ t, t ∈ ts → Fine M t := fun t ht => h1 t (by simp [ht])
    have g2 : ∀ t, t ∈ vs → Fine M t := fun t ht => h2 t (by simp [ht])
    by_cases hs : t.same v = true
    · simp only [unifyLoop, if_pos hs]
      exact loop_ends k hu ts vs s I g1 g2 hk fun t v ht => he t v (by simp [ht])
    · simp only [unifyLoop, if_neg hs]
      obtain ⟨⟨b, s1⟩, hr⟩ := he t v (by simp) (h2 v (by simp))
      have P := ends_post I (h1 t (by simp)) (h2 v (by simp)) hr
      have hrest : ∃ r, Ends (fun f => unifyLoop (unify M f) s1 ts vs) r := by
        rcases post_same I P with e | hlt
        · simp only at e
          subst e
          exact loop_ends k hu ts vs s1 I g1 g2 hk fun t v ht => he t v (by simp [ht])
        · simp only at hlt
          exact loop_ends k hu ts vs s1 P.inv g1 g2 (by omega) fun t' v' ht hv => hu s1 t' v' P.inv (g1 t' ht) hv (by omega)
      obtain ⟨r, hr'⟩ := hrest
      refine ⟨if b then r else (false, s1), ends_bind (k := fun f r => if r.1 then unifyLoop (unify M f) r.2 ts vs
        else Res.ok (false, r.2)) hr ?_⟩
      cases b with
      | true => exact hr'
      | false => exact ends_const _

theorem unify_ends_aux {M : Mem} : ∀ (k m : Nat) (s : St) (x y : Term) (ρ : Nat → Nat), Inv M s → Fine M x → Fine M y → room s ≤ k →
    Resp M natAlg ρ s → ev M natAlg ρ x < m → ∃ r, Ends (fun f => unify M f s x y) r := by
  intro k
  induction k using Nat.strongRecOn with
  | ind k ihk =>
    intro m
    induction m with
    | zero => intro s x y ρ _ _ _ _ _ h; exact absurd h (Nat.not_lt_zero _)
    | succ m ihm =>
      intro s x y ρ I hx hy hk hr hm
      suffices h : ∃ r, Ends (fun f => if x.same y then Res.ok (true, s)
          else (deref f s x).bind fun x => (deref f s y).bind fun y =>
            if x.same y then .ok (true, s) else ladder M (occurs f s) (unify M f) s x y) r by
        obtain ⟨r, h⟩ := h
        exact ⟨r, ends_succ (fun f => rfl) h⟩
      by_cases hs : x.same y = true
      · simp only [if_pos hs]; exact ⟨_, ends_const _⟩
      · simp only [if_neg hs]
        obtain ⟨x1, hx1⟩ := deref_ends I hx
        obtain ⟨y1, hy1⟩ := deref_ends I hy
        have dx : Deref M s x x1 := by obtain ⟨N, h⟩ := hx1; exact deref_ok I hx (h N (Nat.le_refl _))
        have dy : Deref M s y y1 := by obtain ⟨N, h⟩ := hy1; exact deref_ok I hy (h N (Nat.le_refl _))
        suffices h : ∃ r, Ends (fun f => if x1.same y1 then Res.ok (true, s) else ladder M (occurs f s) (unify M f) s x1 y1) r by
          obtain ⟨r, h⟩ := h
          refine ⟨r, ends_bind (k := fun f x => (deref f s y).bind fun y =>
            if x.same y then .ok (true, s) else ladder M (occurs f s) (unify M f) s x y) hx1 ?_⟩
          exact ends_bind (k := fun f y => if x1.same y then .ok (true, s) else ladder M (occurs f s) (unify M f) s x1 y) hy1 h
        by_cases hs1 : x1.same y1 = true
        · simp only [if_pos hs1]; exact ⟨_, ends_const _⟩
        · simp only [if_neg hs1]
          refine ladder_ends I dx.fine dy.fine dx.unbound dy.unbound fun a ts us hxa hus => ?_
          subst hxa
          have hts : ∀ t, t ∈ ts → Fine M t := by
            have := dx.fine
            cases this with
            | app _ h => exact h
          refine loop_ends (room s) ?_ ts us s I hts hus (Nat.le_refl _) ?_
          · intro s' x' y' I' hx' hy' hlt
            obtain ⟨ρ', hr', _⟩ := exists_resp (M := M) I'.wf natAlg (fun _ => 1)
            exact ihk (room s') (by omega) _ s' x' y' ρ' I' hx' hy' (Nat.le_refl _) hr' (Nat.lt_succ_self _)
          · intro t v ht hv
            refine ihm s t v ρ I (hts t ht) hv hk hr ?_
            have := nat_part (M := M) (ρ := ρ) (a := a) ht
            rw [← dx.eval Nat natAlg ρ hr] at this
            omega

/-- Unification ends. -/
theorem unify_ends {M : Mem} {s : St} (I : Inv M s) {x y : Term} (hx : Fine M x) (hy : Fine M y) :
    ∃ r, Ends (fun f => unify M f s x y) r := by
  obtain ⟨ρ, hr, _⟩ := exists_resp (M := M) I.wf natAlg (fun _ => 1)
  exact unify_ends_aux _ _ s x y ρ I hx hy (Nat.le_refl _) hr (Nat.lt_succ_self _)

end WG.Reason
