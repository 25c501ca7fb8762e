import Verif.Reason.Eval
import Mathlib.Data.List.Perm.Subperm

/-! # Bindings: invariant, following variables, setting one -/
namespace WG.Reason

/-- The value of `n` is made of `m`. -/
def Dep (s : St) (m n : Nat) : Prop := ∃ t, s.bank n = some t ∧ m ∈ vars t

/-- Following the bindings from `a` one gets to `b`. -/
def Reach (s : St) (a b : Nat) : Prop := Relation.ReflTransGen (fun p q => Dep s q p) a b

structure Inv (M : Mem) (s : St) : Prop where
  wf : WellFounded (Dep s)
  fine : ∀ n t, s.bank n = some t → Fine M t
  mem : ∀ n, n ∈ s.stack ↔ s.bank n ≠ none
  nodup : s.stack.Nodup
  lt : ∀ n, n ∈ s.stack → n < NV

/-- The valuation agrees with the bindings. -/
def Resp {D : Type} (M : Mem) (A : Alg D) (ρ : Nat → D) (s : St) : Prop := ∀ n t, s.bank n = some t → ρ n = ev M A ρ t

theorem inv_clear (M : Mem) : Inv M St.clear where
  wf := ⟨fun n => ⟨n, fun m h => by obtain ⟨t, h, _⟩ := h; cases h⟩⟩
  fine n t h := by cases h
  mem n := by simp [St.clear]
  nodup := List.nodup_nil
  lt n h := by cases h

theorem fine_vars {M : Mem} {t : Term} (h : Fine M t) : ∀ v, v ∈ vars t → v < NV := by
  induction h with
  | var h => intro v hv; simp only [vars, List.mem_singleton] at hv; omega
  | con c => intro v hv; simp [vars] at hv
  | app h h' ih =>
    intro v hv
    simp only [vars] at hv
    obtain ⟨t, ht, hv⟩ := mem_varsL.1 hv
    exact ih t ht v hv

theorem reach_refl (s : St) (a : Nat) : Reach s a a := Relation.ReflTransGen.refl
theorem reach_step {s : St} {a b c : Nat} {t : Term} (h : s.bank a = some t) (hb : b ∈ vars t) (h' : Reach s b c) : Reach s a c :=
  Relation.ReflTransGen.head ⟨t, h, hb⟩ h'
theorem reach_cases {s : St} {a c : Nat} (h : Reach s a c) : a = c ∨ ∃ t b, s.bank a = some t ∧ b ∈ vars t ∧ Reach s b c := by
  rcases Relation.ReflTransGen.cases_head h with h | ⟨b, ⟨t, h1, h2⟩, h3⟩
  · exact Or.inl h
  · exact Or.inr ⟨t, b, h1, h2, h3⟩
theorem reach_unbound {s : St} {a c : Nat} (ha : s.bank a = none) (h : Reach s a c) : c = a := by
  rcases reach_cases h with h | ⟨t, b, h1, _⟩
  · exact h.symm
  · rw [ha] at h1; cases h1

/-! ## Following variables -/

theorem varval_ok {M : Mem} {s : St} (I : Inv M s) : ∀ (f n : Nat) (t : Term), n < NV → varval f s n = .ok t →
    Fine M t ∧ (∀ m, t = .var m → s.bank m = none) ∧
    (∀ v, v ∈ vars t → Reach s n v) ∧ (∀ u, s.bank u = none → Reach s n u → ∃ v, v ∈ vars t ∧ Reach s v u) ∧
    (∀ (D : Type) (A : Alg D) (ρ : Nat → D), Resp M A ρ s → ρ n = ev M A ρ t)
  | 0, _, _, _, h => by cases h
  | f + 1, n, t, hn, h => by
    rw [varval, St.get, if_pos hn, bind_ok] at h
    cases hb : s.bank n with
    | none =>
      rw [hb] at h
      injection h with h; subst h
      refine ⟨.var hn, ?_, ?_, ?_, ?_⟩
      · intro m hm; injection hm with hm; subst hm; exact hb
      · intro v hv; simp only [vars, List.mem_singleton] at hv; subst hv; exact reach_refl _ _
      · intro u _ hr; exact ⟨n, by simp [vars], hr⟩
      · intro D A ρ _; rfl
    | some w =>
      rw [hb] at h
      have hw := I.fine n w hb
      by_cases hv : ∃ m, w = .var m
      · obtain ⟨m, hm⟩ := hv
        subst hm
        have hm : m < NV := fine_vars hw m (by simp [vars])
        obtain ⟨h1, h2, h3, h4, h5⟩ := varval_ok I f m t hm h
        refine ⟨h1, h2, ?_, ?_, ?_⟩
        · intro v hv; exact reach_step hb (by simp [vars]) (h3 v hv)
        · intro u hu hr
          rcases reach_cases hr with hr | ⟨t', b, h6, h7, h8⟩
          · subst hr; rw [hb] at hu; cases hu
          · rw [hb] at h6; injection h6 with h6; subst h6
            simp only [vars, List.mem_singleton] at h7; subst h7
            exact h4 u hu h8
        · intro D A ρ hr; rw [hr n _ hb]; exact h5 D A ρ hr
      · have h' : t = w := by
          cases w with
          | var m => exact absurd ⟨m, rfl⟩ hv
          | con c => injection h with h; exact h.symm
          | nul => injection h with h; exact h.symm
          | app a ts => injection h with h; exact h.symm
        subst h'
        refine ⟨hw, ?_, ?_, ?_, ?_⟩
        · intro m hm; exact absurd ⟨m, hm⟩ hv
        · intro v hv'; exact reach_step hb hv' (reach_refl _ _)
        · intro u hu hr
          rcases reach_cases hr with hr | ⟨t', b, h6, h7, h8⟩
          · subst hr; rw [hb] at hu; cases hu
          · rw [hb] at h6; injection h6 with h6; subst h6
            exact ⟨b, h7, h8⟩
        · intro D A ρ hr; exact hr n _ hb

theorem varval_ne_bad {M : Mem} {s : St} (I : Inv M s) : ∀ (f n : Nat), n < NV → varval f s n ≠ .bad
  | 0, _, _ => by simp [varval]
  | f + 1, n, hn => by
    rw [varval, St.get, if_pos hn, bind_ok]
    cases hb : s.bank n with
    | none => simp
    | some w =>
      have hw := I.fine n w hb
      cases w with
      | var m => exact varval_ne_bad I f m (fine_vars hw m (by simp [vars]))
      | con c => simp
      | nul => simp
      | app a ts => simp

theorem varval_ends {M : Mem} {s : St} (I : Inv M s) (n : Nat) : n < NV → ∃ t, Ends (fun f => varval f s n) t := by
  induction n using I.wf.induction with
  | h n ih =>
    intro hn
    cases hb : s.bank n with
    | none =>
      refine ⟨.var n, 1, fun f hf => ?_⟩
      obtain ⟨f, rfl⟩ := Nat.exists_eq_add_of_le' hf
      simp only [varval, St.get, if_pos hn, bind_ok, hb]
    | some w =>
      have hw := I.fine n w hb
      by_cases hv : ∃ m, w = .var m
      · obtain ⟨m, rfl⟩ := hv
        obtain ⟨t, N, h⟩ := ih m ⟨_, hb, by simp [vars]⟩ (fine_vars hw m (by simp [vars]))
        refine ⟨t, N + 1, fun f hf => ?_⟩
        obtain ⟨f, rfl⟩ := Nat.exists_eq_add_of_le' hf
        show varval (f + N + 1) s n = _
        simp only [varval, St.get, if_pos hn, bind_ok, hb]
        exact h _ (by omega)
      · refine ⟨w, 1, fun f hf => ?_⟩
        obtain ⟨f, rfl⟩ := Nat.exists_eq_add_of_le' hf
        simp only [varval, St.get, if_pos hn, bind_ok, hb]
        cases w with
        | var m => exact absurd ⟨m, rfl⟩ hv
        | _ => rfl

/-- What `deref` gives. -/
structure Deref (M : Mem) (s : St) (x t : Term) : Prop where
  fine : Fine M t
  unbound : ∀ m, t = .var m → s.bank m = none
  down : ∀ v, v ∈ vars t → ∃ w, w ∈ vars x ∧ Reach s w v
  up : ∀ u, s.bank u = none → ∀ w, w ∈ vars x → Reach s w u → ∃ v, v ∈ vars t ∧ Reach s v u
  eval : ∀ (D : Type) (A : Alg D) (ρ : Nat → D), Resp M A ρ s → ev M A ρ x = ev M A ρ t

theorem deref_ok {M : Mem} {s : St} (I : Inv M s) {f : Nat} {x t : Term} (hx : Fine M x) (h : deref f s x = .ok t) : Deref M s x t := by
  cases hx with
  | var hn =>
    obtain ⟨h1, h2, h3, h4, h5⟩ := varval_ok I f _ t hn h
    refine ⟨h1, h2, ?_, ?_, ?_⟩
    · intro v hv; exact ⟨_, by simp [vars], h3 v hv⟩
    · intro u hu w hw hr; simp only [vars, List.mem_singleton] at hw; subst hw; exact h4 u hu hr
    · intro D A ρ hr; exact h5 D A ρ hr
  | con c =>
    injection h with h; subst h
    exact ⟨.con c, fun m hm => (by cases hm), fun v hv => (by simp [vars] at hv), fun u hu w hw => (by simp [vars] at hw), fun _ _ _ _ => rfl⟩
  | app h1 h2 =>
    injection h with h; subst h
    exact ⟨.app h1 h2, fun m hm => (by cases hm), fun v hv => ⟨v, hv, reach_refl _ _⟩, fun u hu w hw hr => ⟨w, hw, hr⟩, fun _ _ _ _ => rfl⟩

theorem deref_ne_bad {M : Mem} {s : St} (I : Inv M s) {f : Nat} {x : Term} (hx : Fine M x) : deref f s x ≠ .bad := by
  cases hx with
  | var hn => exact varval_ne_bad I f _ hn
  | con c => simp [deref]
  | app h1 h2 => simp [deref]

theorem deref_ends {M : Mem} {s : St} (I : Inv M s) {x : Term} (hx : Fine M x) : ∃ t, Ends (fun f => deref f s x) t := by
  cases hx with
  | var hn => exact varval_ends I _ hn
  | con c => exact ⟨_, 0, fun _ _ => rfl⟩
  | app h1 h2 => exact ⟨_, 0, fun _ _ => rfl⟩

/-! ## The search for a variable in a record -/

theorem occLoop_ne_bad {de : Term → Res Term} {occ : Term → Res Bool} {n : Nat} : ∀ ts : List Term,
    (∀ t, t ∈ ts → de t ≠ .bad) → (∀ t u, t ∈ ts → de t = .ok u → u.isRec = true → occ u ≠ .bad) → occLoop de occ n ts ≠ .bad
  | [], _, _ => by simp [occLoop]
  | t :: ts, h1, h2 => by
    rw [occLoop]
    apply bind_ne_bad (h1 t (by simp))
    intro u hu
    by_cases hs : (Term.var n).same u = true
    · rw [if_pos hs]; simp
    · rw [if_neg hs]
      have hr := occLoop_ne_bad (n := n) ts (fun t ht => h1 t (by simp [ht])) (fun t u ht => h2 t u (by simp [ht]))
      by_cases hi : u.isRec = true
      · rw [if_pos hi]
        apply bind_ne_bad (h2 t u (by simp) hu hi)
        intro b _
        cases b
        · exact hr
        · simp
      · rw [if_neg hi]; exact hr

theorem occurs_ne_bad {M : Mem} {s : St} (I : Inv M s) {n : Nat} : ∀ (f : Nat) (y : Term), Fine M y → y.isRec = true → occurs f s n y ≠ .bad
  | 0, _, _, _ => by simp [occurs]
  | f + 1, y, hy, hi => by
    cases hy with
    | var _ => cases hi
    | con _ => cases hi
    | app h1 h2 =>
      rw [occurs]
      exact occLoop_ne_bad _ (fun t ht => deref_ne_bad I (h2 t ht))
        (fun t u ht hu hu' => occurs_ne_bad I f u (deref_ok I (h2 t ht) hu).fine hu')

/-- What the search says, for one word. -/
def OccSays (M : Mem) (s : St) (n : Nat) (y : Term) (b : Bool) : Prop :=
  (b = true → ∀ (D : Type) (A : Alg D) (F : Free A) (ρ : Nat → D), Resp M A ρ s → F.size (ρ n) < F.size (ev M A ρ y)) ∧
  (b = false → ∀ v, v ∈ vars y → ¬ Reach s v n)

theorem occLoop_ok {M : Mem} {s : St} (I : Inv M s) {n : Nat} (hn : s.bank n = none) {f : Nat} {occ : Term → Res Bool}
    (ho : ∀ u b, Fine M u → u.isRec = true → occ u = .ok b → OccSays M s n u b) : ∀ (ts : List Term) (b : Bool),
    (∀ t, t ∈ ts → Fine M t) → occLoop (deref f s) occ n ts = .ok b →
    (b = true → ∃ t, t ∈ ts ∧ ∀ (D : Type) (A : Alg D) (F : Free A) (ρ : Nat → D), Resp M A ρ s →
      F.size (ρ n) ≤ F.size (ev M A ρ t)) ∧
    (b = false → ∀ v, v ∈ varsL ts → ¬ Reach s v n)
  | [], b, _, h => by
    injection h with h; subst h
    exact ⟨fun h => (by cases h), fun _ v hv => by simp [varsL] at hv⟩
  | t :: ts, b, hf, h => by
    rw [occLoop] at h
    obtain ⟨u, hu, h⟩ := bind_eq_ok h
    have d := deref_ok I (hf t (by simp)) hu
    have rest := fun b => occLoop_ok (f := f) I hn ho ts b (fun t ht => hf t (by simp [ht]))
    by_cases hs : (Term.var n).same u = true
    · rw [if_pos hs] at h
      injection h with h; subst h
      have hu' := same_var hs
      subst hu'
      refine ⟨fun _ => ⟨t, by simp, fun D A F ρ hr => ?_⟩, fun h => by cases h⟩
      rw [d.eval D A ρ hr]
      exact Nat.le_refl _
    · rw [if_neg hs] at h
      have key : ∀ b, occLoop (deref f s) occ n ts = .ok b → (∀ v, v ∈ vars u → ¬ Reach s v n) →
          (b = true → ∃ t', t' ∈ t :: ts ∧ ∀ (D : Type) (A : Alg D) (F : Free A) (ρ : Nat → D), Resp M A ρ s →
            F.size (ρ n) ≤ F.size (ev M A ρ t')) ∧
          (b = false → ∀ v, v ∈ varsL (t :: ts) → ¬ Reach s v n) := by
        intro b hb hno
        obtain ⟨h1, h2⟩ := rest b hb
        refine ⟨fun hb => ?_, fun hb v hv hr => ?_⟩
        · obtain ⟨t', ht', h3⟩ := h1 hb
          exact ⟨t', by simp [ht'], h3⟩
        · simp only [varsL, List.mem_append] at hv
          rcases hv with hv | hv
          · obtain ⟨w, hw, hr'⟩ := d.up n hn v hv hr
            exact hno w hw hr'
          · exact h2 hb v hv hr
      by_cases hi : u.isRec = true
      · rw [if_pos hi] at h
        obtain ⟨b', hb', h⟩ := bind_eq_ok h
        obtain ⟨h1, h2⟩ := ho u b' d.fine hi hb'
        cases b' with
        | true =>
          rw [if_pos rfl] at h
          injection h with h; subst h
          refine ⟨fun _ => ⟨t, by simp, fun D A F ρ hr => ?_⟩, fun h => by cases h⟩
          rw [d.eval D A ρ hr]
          exact Nat.le_of_lt (h1 rfl D A F ρ hr)
        | false =>
          rw [if_neg (by simp)] at h
          exact key b h (h2 rfl)
      · rw [if_neg hi] at h
        refine key b h fun v hv hr => ?_
        cases u with
        | var m =>
          simp only [vars, List.mem_singleton] at hv
          subst hv
          have := reach_unbound (d.unbound _ rfl) hr
          subst this
          simp [Term.same] at hs
        | con c => simp [vars] at hv
        | nul => simp [vars] at hv
        | app a ts => simp [Term.isRec] at hi

theorem occurs_ok {M : Mem} {s : St} (I : Inv M s) {n : Nat} (hn : s.bank n = none) : ∀ (f : Nat) (y : Term) (b : Bool), Fine M y →
    y.isRec = true → occurs f s n y = .ok b → OccSays M s n y b
  | 0, _, _, _, _, h => by cases h
  | f + 1, y, b, hy, hi, h => by
    cases hy with
    | var _ => cases hi
    | con _ => cases hi
    | @app a ts h1 h2 =>
      rw [occurs] at h
      obtain ⟨h3, h4⟩ := occLoop_ok I hn (fun u b hu hi h => occurs_ok I hn f u b hu hi h) ts b h2 h
      refine ⟨fun hb D A F ρ hr => ?_, fun hb v hv => h4 hb v hv⟩
      obtain ⟨t, ht, h5⟩ := h3 hb
      refine Nat.lt_of_le_of_lt (h5 D A F ρ hr) ?_
      simp only [ev]
      apply F.size_lt
      rw [evL_map]
      exact List.mem_map_of_mem ht

/-! ## Setting a variable -/

theorem stack_lt {M : Mem} {s : St} (I : Inv M s) {n : Nat} (hn : n < NV) (hb : s.bank n = none) : s.stack.length < NV := by
  have hnot : n ∉ s.stack := fun h => (I.mem n).1 h hb
  have hnd : (n :: s.stack).Nodup := List.nodup_cons.2 ⟨hnot, I.nodup⟩
  have hsub : (n :: s.stack) ⊆ List.range NV := by
    intro m hm
    rw [List.mem_range]
    rcases List.mem_cons.1 hm with h | h
    · rw [h]; exact hn
    · exact I.lt m h
  have := (List.subperm_of_subset hnd hsub).length_le
  rw [List.length_range, List.length_cons] at this
  exact this

theorem stack_le {M : Mem} {s : St} (I : Inv M s) : s.stack.length ≤ NV := by
  have hsub : s.stack ⊆ List.range NV := fun m hm => List.mem_range.2 (I.lt m hm)
  have := (List.subperm_of_subset I.nodup hsub).length_le
  rwa [List.length_range] at this

/-- The state behind `set`. -/
def St.upd (s : St) (n : Nat) (t : Term) : St := ⟨fun m => if m = n then some t else s.bank m, n :: s.stack⟩

theorem upd_same (s : St) (n : Nat) (t : Term) : (s.upd n t).bank n = some t := if_pos rfl
theorem upd_other {s : St} {n m : Nat} {t : Term} (h : m ≠ n) : (s.upd n t).bank m = s.bank m := if_neg h

theorem set_ok {M : Mem} {s : St} (I : Inv M s) {n : Nat} {t : Term} (hn : n < NV) (hb : s.bank n = none) :
    s.set n t = .ok (s.upd n t) := by
  rw [St.set, if_pos ⟨hn, stack_lt I hn hb⟩, St.upd]

theorem upd_acc {s : St} {n : Nat} {t : Term} (wf : WellFounded (Dep s)) (hb : s.bank n = none)
    (ht : ∀ v, v ∈ vars t → ¬ Reach s v n) : WellFounded (Dep (s.upd n t)) := by
  have free : ∀ v, ¬ Reach s v n → Acc (Dep (s.upd n t)) v := by
    intro v
    induction v using wf.induction with
    | h v ih =>
      intro hr
      have hv : v ≠ n := fun h => hr (by rw [h]; exact reach_refl _ _)
      refine ⟨v, fun m ⟨w, hw, hm⟩ => ?_⟩
      rw [upd_other hv] at hw
      exact ih m ⟨w, hw, hm⟩ fun h => hr (reach_step hw hm h)
  have self : Acc (Dep (s.upd n t)) n := by
    refine ⟨n, fun m ⟨w, hw, hm⟩ => ?_⟩
    rw [upd_same] at hw
    injection hw with hw; subst hw
    exact free m (ht m hm)
  refine ⟨fun v => ?_⟩
  induction v using wf.induction with
  | h v ih =>
    by_cases hv : v = n
    · rw [hv]; exact self
    · refine ⟨v, fun m ⟨w, hw, hm⟩ => ?_⟩
      rw [upd_other hv] at hw
      exact ih m ⟨w, hw, hm⟩

theorem upd_inv {M : Mem} {s : St} (I : Inv M s) {n : Nat} {t : Term} (hn : n < NV) (hb : s.bank n = none) (hf : Fine M t)
    (ht : ∀ v, v ∈ vars t → ¬ Reach s v n) : Inv M (s.upd n t) where
  wf := upd_acc I.wf hb ht
  fine m w h := by
    by_cases hm : m = n
    · subst hm; rw [upd_same] at h; injection h with h; subst h; exact hf
    · rw [upd_other hm] at h; exact I.fine m w h
  mem m := by
    by_cases hm : m = n
    · subst hm; rw [upd_same]; simp [St.upd]
    · rw [upd_other hm, ← I.mem m]; simp [St.upd, hm]
  nodup := List.nodup_cons.2 ⟨fun h => (I.mem n).1 h hb, I.nodup⟩
  lt m hm := by
    rcases List.mem_cons.1 hm with h | h
    · rw [h]; exact hn
    · exact I.lt m h

theorem upd_resp {D : Type} {M : Mem} {A : Alg D} {ρ : Nat → D} {s : St} {n : Nat} {t : Term} (hb : s.bank n = none) :
    Resp M A ρ (s.upd n t) ↔ Resp M A ρ s ∧ ρ n = ev M A ρ t := by
  constructor
  · intro h
    refine ⟨fun m w hm => ?_, h n t (upd_same s n t)⟩
    have : m ≠ n := fun h => by rw [h, hb] at hm; cases hm
    exact h m w (by rw [upd_other this]; exact hm)
  · rintro ⟨h1, h2⟩ m w hm
    by_cases hmn : m = n
    · subst hmn; rw [upd_same] at hm; injection hm with hm; subst hm; exact h2
    · rw [upd_other hmn] at hm; exact h1 m w hm

/-- A valuation that agrees with the bindings; for variables without one it is `δ`. -/
theorem exists_resp {D : Type} {M : Mem} {s : St} (wf : WellFounded (Dep s)) (A : Alg D) (δ : Nat → D) :
    ∃ ρ : Nat → D, Resp M A ρ s ∧ ∀ n, s.bank n = none → ρ n = δ n := by
  classical
  let F : (n : Nat) → ((m : Nat) → Dep s m n → D) → D := fun n r =>
    match h : s.bank n with
    | none => δ n
    | some t => ev M A (fun m => if hm : m ∈ vars t then r m ⟨t, h, hm⟩ else δ m) t
  refine ⟨wf.fix F, fun n t hn => ?_, fun n hn => ?_⟩
  · rw [wf.fix_eq]
    show (match h : s.bank n with
      | none => δ n
      | some t => ev M A (fun m => if hm : m ∈ vars t then wf.fix F m else δ m) t) = _
    split
    · rename_i h; rw [hn] at h; cases h
    · rename_i t' h
      rw [hn] at h; injection h with h; subst h
      apply ev_congr
      intro v hv
      rw [dif_pos hv]
  · rw [wf.fix_eq]
    show (match h : s.bank n with
      | none => δ n
      | some t => ev M A (fun m => if hm : m ∈ vars t then wf.fix F m else δ m) t) = _
    split
    · rfl
    · rename_i t' h; rw [hn] at h; cases h

end WG.Reason
