import Verif.Reason.Bind

/-! # Unification: what the result means -/
namespace WG.Reason

/-- What holds behind a call that got `s` and gave `b` and `s'`, for an equation between values. -/
structure Post (M : Mem) (s : St) (E : (D : Type) → Alg D → (Nat → D) → Prop) (b : Bool) (s' : St) : Prop where
  inv : Inv M s'
  stack : ∃ new, s'.stack = new ++ s.stack
  keep : ∀ n t, s.bank n = some t → s'.bank n = some t
  sound : b = true → ∀ (D : Type) (A : Alg D) (ρ : Nat → D), Resp M A ρ s' → E D A ρ
  complete : ∀ (D : Type) (A : Alg D) (ρ : Nat → D), Free A → Resp M A ρ s → E D A ρ → b = true ∧ Resp M A ρ s'

/-- Two words have the same value. -/
def EqT (M : Mem) (x y : Term) (D : Type) (A : Alg D) (ρ : Nat → D) : Prop := ev M A ρ x = ev M A ρ y
/-- Two lists of words have the same values. -/
def EqL (M : Mem) (xs ys : List Term) (D : Type) (A : Alg D) (ρ : Nat → D) : Prop := evL M A ρ xs = evL M A ρ ys

theorem resp_keep {D : Type} {M : Mem} {A : Alg D} {ρ : Nat → D} {s s' : St} (h : ∀ n t, s.bank n = some t → s'.bank n = some t)
    (hr : Resp M A ρ s') : Resp M A ρ s := fun n t hn => hr n t (h n t hn)

theorem post_true {M : Mem} {s : St} (I : Inv M s) {E : (D : Type) → Alg D → (Nat → D) → Prop}
    (h : ∀ D A ρ, Resp M A ρ s → E D A ρ) : Post M s E true s :=
  ⟨I, ⟨[], rfl⟩, fun _ _ h => h, fun _ D A ρ hr => h D A ρ hr, fun _ _ _ _ hr _ => ⟨rfl, hr⟩⟩

theorem post_false {M : Mem} {s : St} (I : Inv M s) {E : (D : Type) → Alg D → (Nat → D) → Prop}
    (h : ∀ D A ρ, Free A → Resp M A ρ s → ¬ E D A ρ) : Post M s E false s :=
  ⟨I, ⟨[], rfl⟩, fun _ _ h => h, fun hb => (by cases hb), fun D A ρ F hr he => absurd he (h D A ρ F hr)⟩

theorem post_set {M : Mem} {s : St} (I : Inv M s) {n : Nat} {t : Term} (hn : n < NV) (hb : s.bank n = none) (hf : Fine M t)
    (ht : ∀ v, v ∈ vars t → ¬ Reach s v n) : Post M s (EqT M (.var n) t) true (s.upd n t) := by
  refine ⟨upd_inv I hn hb hf ht, ⟨[n], rfl⟩, fun m w h => ?_, fun _ D A ρ hr => ((upd_resp hb).1 hr).2,
    fun D A ρ _ hr he => ⟨rfl, (upd_resp hb).2 ⟨hr, he⟩⟩⟩
  have : m ≠ n := fun e => by rw [e, hb] at h; cases h
  rw [upd_other this]; exact h

theorem Post.congr {M : Mem} {s : St} {E E' : (D : Type) → Alg D → (Nat → D) → Prop} {b : Bool} {s' : St} (P : Post M s E b s')
    (h : ∀ D A ρ, Resp M A ρ s → (E D A ρ ↔ E' D A ρ)) : Post M s E' b s' :=
  ⟨P.inv, P.stack, P.keep, fun hb D A ρ hr => (h D A ρ (resp_keep P.keep hr)).1 (P.sound hb D A ρ hr),
    fun D A ρ F hr he => P.complete D A ρ F hr ((h D A ρ hr).2 he)⟩

/-! ## The ladder -/

theorem bindRec_post {M : Mem} {s : St} (I : Inv M s) {f : Nat} {n : Nat} {t : Term} {b : Bool} {s' : St} (hn : n < NV)
    (hb : s.bank n = none) (hf : Fine M t) (hi : t.isRec = true) (h : bindRec (occurs f s n) s n t = .ok (b, s')) :
    Post M s (EqT M (.var n) t) b s' := by
  rw [bindRec] at h
  obtain ⟨o, ho, h⟩ := bind_eq_ok h
  obtain ⟨h1, h2⟩ := occurs_ok I hb f t o hf hi ho
  cases o with
  | true =>
    rw [if_pos rfl] at h
    injection h with h; injection h with e1 e2; subst e1; subst e2
    refine post_false I fun D A ρ F hr he => ?_
    have := h1 rfl D A F ρ hr
    unfold EqT at he
    rw [← he] at this
    exact Nat.lt_irrefl _ this
  | false =>
    rw [if_neg (by simp), set_ok I hn hb, bind_ok] at h
    injection h with h; injection h with e1 e2; subst e1; subst e2
    exact post_set I hn hb hf (h2 rfl)

theorem bindRec_ne_bad {M : Mem} {s : St} (I : Inv M s) {f : Nat} {n : Nat} {t : Term} (hn : n < NV)
    (hb : s.bank n = none) (hf : Fine M t) (hi : t.isRec = true) : bindRec (occurs f s n) s n t ≠ .bad := by
  rw [bindRec]
  apply bind_ne_bad (occurs_ne_bad I f t hf hi)
  intro o _
  cases o with
  | true => simp
  | false => rw [if_neg (by simp), set_ok I hn hb]; simp

theorem eqT_symm {M : Mem} {x y : Term} {s : St} : ∀ D A ρ, Resp M A ρ s → (EqT M x y D A ρ ↔ EqT M y x D A ρ) :=
  fun _ _ _ _ => ⟨Eq.symm, Eq.symm⟩

theorem no_reach_var {s : St} {n m : Nat} (hm : s.bank m = none) (hne : n ≠ m) : ∀ v, v ∈ vars (.var m) → ¬ Reach s v n := by
  intro v hv hr
  simp only [vars, List.mem_singleton] at hv
  subst hv
  exact hne (reach_unbound hm hr)

theorem no_reach_con {s : St} {n : Nat} {c : Const} : ∀ v, v ∈ vars (.con c) → ¬ Reach s v n := by
  intro v hv; simp [vars] at hv

theorem evL_length {D : Type} (M : Mem) (A : Alg D) (ρ : Nat → D) (ts : List Term) : (evL M A ρ ts).length = ts.length := by
  rw [evL_map, List.length_map]

theorem ladder_post {M : Mem} {s : St} (I : Inv M s) {f : Nat} {u : St → Term → Term → Res (Bool × St)} {x y : Term} {b : Bool} {s' : St}
    (hx : Fine M x) (hy : Fine M y) (hns : x.same y = false) (ux : ∀ m, x = .var m → s.bank m = none)
    (uy : ∀ m, y = .var m → s.bank m = none)
    (hl : ∀ ts us b s', (∀ t, t ∈ ts → Fine M t) → (∀ t, t ∈ us → Fine M t) → ts.length = us.length →
      unifyLoop u s ts us = .ok (b, s') → Post M s (EqL M ts us) b s')
    (h : ladder M (occurs f s) u s x y = .ok (b, s')) : Post M s (EqT M x y) b s' := by
  cases hx with
  | @var n hn =>
    have hb := ux n rfl
    cases hy with
    | @var m hm =>
      have hne : n ≠ m := fun e => by subst e; simp [Term.same] at hns
      rw [ladder, set_ok I hn hb, bind_ok] at h
      injection h with h; injection h with e1 e2; subst e1; subst e2
      exact post_set I hn hb (.var hm) (no_reach_var (uy m rfl) hne)
    | con c =>
      rw [ladder, set_ok I hn hb, bind_ok] at h
      injection h with h; injection h with e1 e2; subst e1; subst e2
      exact post_set I hn hb (.con c) no_reach_con
    | app h1 h2 => exact bindRec_post I hn hb (.app h1 h2) rfl h
  | con c =>
    cases hy with
    | @var m hm =>
      have hb := uy m rfl
      rw [ladder, set_ok I hm hb, bind_ok] at h
      injection h with h; injection h with e1 e2; subst e1; subst e2
      exact (post_set I hm hb (.con c) no_reach_con).congr eqT_symm
    | con d =>
      rw [ladder] at h
      injection h with h; injection h with e1 e2; subst e1; subst e2
      have hcd : c ≠ d := fun e => by subst e; simp [Term.same] at hns
      have key := eqPrim_iff M c d
      cases he : eqPrim M c d with
      | true =>
        refine post_true I fun D A ρ _ => ?_
        show A.con _ = A.con _
        rw [key.1 (Or.inr he)]
      | false =>
        refine post_false I fun D A ρ F _ h => ?_
        rcases key.2 (F.con_inj _ _ h) with h | h
        · exact hcd h
        · rw [he] at h; cases h
    | app h1 h2 =>
      rw [ladder] at h
      · injection h with h; injection h with e1 e2; subst e1; subst e2
        exact post_false I fun D A ρ F _ h => F.con_app _ _ h
      all_goals (intros; simp_all)
  | @app a ts h1 h2 =>
    cases hy with
    | @var m hm =>
      exact (bindRec_post I hm (uy m rfl) (.app h1 h2) rfl h).congr eqT_symm
    | con d =>
      injection h with h; injection h with e1 e2; subst e1; subst e2
      exact post_false I fun D A ρ F _ h => F.con_app _ _ h.symm
    | @app a' us h3 h4 =>
      have h' : (if ts.length ≠ us.length then .ok (false, s) else unifyLoop u s ts us) = Res.ok (b, s') := h
      by_cases hlen : ts.length ≠ us.length
      · rw [if_pos hlen] at h'
        injection h' with h'; injection h' with e1 e2; subst e1; subst e2
        refine post_false I fun D A ρ F _ he => hlen ?_
        have := congrArg List.length (F.app_inj _ _ he)
        rwa [evL_length, evL_length] at this
      · rw [if_neg hlen] at h'
        have P := hl ts us b s' h2 h4 (by omega) h'
        refine ⟨P.inv, P.stack, P.keep, fun hb D A ρ hr => ?_, fun D A ρ F hr he => P.complete D A ρ F hr (F.app_inj _ _ he)⟩
        show A.app _ = A.app _
        rw [show evL M A ρ ts = evL M A ρ us from P.sound hb D A ρ hr]

theorem ladder_ne_bad {M : Mem} {s : St} (I : Inv M s) {f : Nat} {u : St → Term → Term → Res (Bool × St)} {x y : Term}
    (hx : Fine M x) (hy : Fine M y) (ux : ∀ m, x = .var m → s.bank m = none)
    (uy : ∀ m, y = .var m → s.bank m = none)
    (hl : ∀ ts us, (∀ t, t ∈ ts → Fine M t) → (∀ t, t ∈ us → Fine M t) → unifyLoop u s ts us ≠ .bad) :
    ladder M (occurs f s) u s x y ≠ .bad := by
  cases hx with
  | @var n hn =>
    have hb := ux n rfl
    cases hy with
    | @var m hm => rw [ladder, set_ok I hn hb]; simp
    | con c => rw [ladder, set_ok I hn hb]; simp
    | app h1 h2 => exact bindRec_ne_bad I hn hb (.app h1 h2) rfl
  | con c =>
    cases hy with
    | @var m hm => rw [ladder, set_ok I hm (uy m rfl)]; simp
    | con d => simp [ladder]
    | app h1 h2 => simp [ladder]
  | @app a ts h1 h2 =>
    cases hy with
    | @var m hm => exact bindRec_ne_bad I hm (uy m rfl) (.app h1 h2) rfl
    | con d => simp [ladder]
    | @app a' us h3 h4 =>
      show (if ts.length ≠ us.length then .ok (false, s) else unifyLoop u s ts us) ≠ Res.bad
      by_cases hlen : ts.length ≠ us.length
      · rw [if_pos hlen]; simp
      · rw [if_neg hlen]; exact hl ts us h2 h4

/-! ## The loop and the whole -/

theorem Post.trans {M : Mem} {s s1 s2 : St} {x y : Term} {xs ys : List Term} {b : Bool} (P : Post M s (EqT M x y) true s1)
    (Q : Post M s1 (EqL M xs ys) b s2) : Post M s (EqL M (x :: xs) (y :: ys)) b s2 := by
  refine ⟨Q.inv, ?_, fun n t h => Q.keep n t (P.keep n t h), fun hb D A ρ hr => ?_, fun D A ρ F hr he => ?_⟩
  · obtain ⟨n1, h1⟩ := P.stack
    obtain ⟨n2, h2⟩ := Q.stack
    exact ⟨n2 ++ n1, by rw [h2, h1, List.append_assoc]⟩
  · have e1 : ev M A ρ x = ev M A ρ y := P.sound rfl D A ρ (resp_keep Q.keep hr)
    have e2 : evL M A ρ xs = evL M A ρ ys := Q.sound hb D A ρ hr
    simp only [EqL, evL, e1, e2]
  · simp only [EqL, evL, List.cons.injEq] at he
    obtain ⟨_, h2⟩ := P.complete D A ρ F hr he.1
    exact Q.complete D A ρ F h2 he.2

theorem loop_post {M : Mem} {u : St → Term → Term → Res (Bool × St)}
    (hu : ∀ s x y b s', Inv M s → Fine M x → Fine M y → u s x y = .ok (b, s') → Post M s (EqT M x y) b s') :
    ∀ (ts us : List Term) (s : St) (b : Bool) (s' : St), Inv M s → (∀ t, t ∈ ts → Fine M t) → (∀ t, t ∈ us → Fine M t) →
    ts.length = us.length → unifyLoop u s ts us = .ok (b, s') → Post M s (EqL M ts us) b s'
  | [], [], s, b, s', I, _, _, _, h => by
    injection h with h; injection h with e1 e2; subst e1; subst e2
    exact post_true I fun D A ρ _ => rfl
  | [], _ :: _, _, _, _, _, _, _, hlen, _ => by simp at hlen
  | _ :: _, [], _, _, _, _, _, _, hlen, _ => by simp at hlen
  | t :: ts, v :: vs, s, b, s', I, h1, h2, hlen, h => by
    have g1 : ∀ t, t ∈ ts → Fine M t := fun t ht => h1 t (by simp [ht])
    have g2 : ∀ t, t ∈ vs → Fine M t := fun t ht => h2 t (by simp [ht])
    have hlen' : ts.length = vs.length := by simpa using hlen
    rw [unifyLoop] at h
    by_cases hs : t.same v = true
    · rw [if_pos hs] at h
      have he := same_eq (h1 t (by simp)) (h2 v (by simp)) hs
      subst he
      have P : Post M s (EqT M t t) true s := post_true I fun _ _ _ _ => rfl
      exact P.trans (loop_post hu ts vs s b s' I g1 g2 hlen' h)
    · rw [if_neg hs] at h
      obtain ⟨⟨b1, s1⟩, hr, h⟩ := bind_eq_ok h
      have P := hu s t v b1 s1 I (h1 t (by simp)) (h2 v (by simp)) hr
      cases b1 with
      | true =>
        rw [if_pos rfl] at h
        exact P.trans (loop_post hu ts vs s1 b s' P.inv g1 g2 hlen' h)
      | false =>
        rw [if_neg (by simp)] at h
        injection h with h; injection h with e1 e2; subst e1; subst e2
        refine ⟨P.inv, P.stack, P.keep, fun hb => (by cases hb), fun D A ρ F hr he => ?_⟩
        simp only [EqL, evL, List.cons.injEq] at he
        exact absurd (P.complete D A ρ F hr he.1).1 (by simp)

theorem loop_ne_bad {M : Mem} {u : St → Term → Term → Res (Bool × St)}
    (hu : ∀ s x y, Inv M s → Fine M x → Fine M y → u s x y ≠ .bad)
    (hu' : ∀ s x y b s', Inv M s → Fine M x → Fine M y → u s x y = .ok (b, s') → Inv M s') :
    ∀ (ts us : List Term) (s : St), Inv M s → (∀ t, t ∈ ts → Fine M t) → (∀ t, t ∈ us → Fine M t) → unifyLoop u s ts us ≠ .bad
  | [], _, _, _, _, _ => by simp [unifyLoop]
  | _ :: _, [], _, _, _, _ => by simp [unifyLoop]
  | t :: ts, v :: vs, s, I, h1, h2 => by
    have g1 : ∀ t, t ∈ ts → Fine M t := fun t ht => h1 t (by simp [ht])
    have g2 : ∀ t, t ∈ vs → Fine M t := fun t ht => h2 t (by simp [ht])
    rw [unifyLoop]
    by_cases hs : t.same v = true
    · rw [if_pos hs]; exact loop_ne_bad hu hu' ts vs s I g1 g2
    · rw [if_neg hs]
      apply bind_ne_bad (hu s t v I (h1 t (by simp)) (h2 v (by simp)))
      rintro ⟨b1, s1⟩ hr
      cases b1 with
      | true =>
        rw [if_pos rfl]
        exact loop_ne_bad hu hu' ts vs s1 (hu' s t v true s1 I (h1 t (by simp)) (h2 v (by simp)) hr) g1 g2
      | false => simp

theorem unify_post {M : Mem} : ∀ (f : Nat) (s : St) (x y : Term) (b : Bool) (s' : St), Inv M s → Fine M x → Fine M y →
    unify M f s x y = .ok (b, s') → Post M s (EqT M x y) b s'
  | 0, _, _, _, _, _, _, _, _, h => by cases h
  | f + 1, s, x, y, b, s', I, hx, hy, h => by
    rw [unify] at h
    by_cases hs : x.same y = true
    · rw [if_pos hs] at h
      injection h with h; injection h with e1 e2; subst e1; subst e2
      rw [same_eq hx hy hs]
      exact post_true I fun _ _ _ _ => rfl
    · rw [if_neg hs] at h
      obtain ⟨x1, hx1, h⟩ := bind_eq_ok h
      obtain ⟨y1, hy1, h⟩ := bind_eq_ok h
      have dx := deref_ok I hx hx1
      have dy := deref_ok I hy hy1
      have conv : ∀ D A ρ, Resp M A ρ s → (EqT M x1 y1 D A ρ ↔ EqT M x y D A ρ) := by
        intro D A ρ hr
        unfold EqT
        rw [dx.eval D A ρ hr, dy.eval D A ρ hr]
      by_cases hs1 : x1.same y1 = true
      · rw [if_pos hs1] at h
        injection h with h; injection h with e1 e2; subst e1; subst e2
        rw [same_eq dx.fine dy.fine hs1] at conv
        exact post_true I fun D A ρ hr => (conv D A ρ hr).1 rfl
      · rw [if_neg hs1] at h
        refine Post.congr (ladder_post I dx.fine dy.fine (by simpa using hs1) dx.unbound dy.unbound ?_ h) conv
        intro ts us b s' h1 h2 hlen hl
        exact loop_post (fun s x y b s' I hx hy h => unify_post f s x y b s' I hx hy h) ts us s b s' I h1 h2 hlen hl

theorem unify_ne_bad {M : Mem} : ∀ (f : Nat) (s : St) (x y : Term), Inv M s → Fine M x → Fine M y → unify M f s x y ≠ .bad
  | 0, _, _, _, _, _, _ => by simp [unify]
  | f + 1, s, x, y, I, hx, hy => by
    rw [unify]
    by_cases hs : x.same y = true
    · rw [if_pos hs]; simp
    · rw [if_neg hs]
      apply bind_ne_bad (deref_ne_bad I hx)
      intro x1 hx1
      apply bind_ne_bad (deref_ne_bad I hy)
      intro y1 hy1
      have dx := deref_ok I hx hx1
      have dy := deref_ok I hy hy1
      by_cases hs1 : x1.same y1 = true
      · rw [if_pos hs1]; simp
      · rw [if_neg hs1]
        refine ladder_ne_bad I dx.fine dy.fine dx.unbound dy.unbound ?_
        intro ts us h1 h2
        exact loop_ne_bad (fun s x y I hx hy => unify_ne_bad f s x y I hx hy)
          (fun s x y b s' I hx hy h => (unify_post f s x y b s' I hx hy h).inv) ts us s I h1 h2

end WG.Reason
