import Verif.Reason.Bind
import Verif.Reason.Clause

/-! # Equality and matching -/
namespace WG.Reason

theorem eqPrim_or (M : Mem) (c d : Const) : (c == d || eqPrim M c d) = true ↔ c.val M = d.val M := by
  rw [← eqPrim_iff M c d]; simp

theorem eqTerm_iff {M : Mem} {x : Term} : ∀ {y : Term}, Fine M x → Fine M y → (eqTerm M x y = .ok true ↔ tree M x = tree M y) := by
  induction x using Term.ind with
  | hv n => intro y _ hy; cases hy <;> simp [eqTerm, Term.same, tree]
  | hc c =>
    intro y _ hy
    cases hy with
    | con d =>
      have := eqPrim_or M c d
      simp only [eqTerm, tree, Tree.con.injEq]
      rw [← this]
      constructor
      · intro h; injection h
      · intro h; rw [h]
    | _ => simp [eqTerm, tree]
  | hn => intro y hx; cases hx
  | ha a ts ih =>
    intro y hx hy
    cases hy with
    | var _ => simp [eqTerm, tree]
    | con c => cases c <;> simp [eqTerm, tree]
    | @app b us h3 h4 =>
      cases hx with
      | app h1 h2 =>
        rw [eqTerm]
        by_cases hab : a = b
        · rw [if_pos hab]
          subst hab
          rw [← h1, ← h3]
          simp
        · rw [if_neg hab]
          have key : ∀ (ts us : List Term), (∀ t, t ∈ ts → ∀ {y : Term}, Fine M t → Fine M y → (eqTerm M t y = .ok true ↔ tree M t = tree M y)) →
              (∀ t, t ∈ ts → Fine M t) → (∀ t, t ∈ us → Fine M t) → ts.length = us.length →
              (eqArgs M ts us = .ok true ↔ treeL M ts = treeL M us) := by
            intro ts
            induction ts with
            | nil =>
              intro us _ _ _ hl
              cases us with
              | nil => simp [eqArgs]
              | cons u us => simp at hl
            | cons t ts ihts =>
              intro us ih h1 h2 hl
              cases us with
              | nil => simp at hl
              | cons u us =>
                have e1 := ih t (by simp) (h1 t (by simp)) (h2 u (by simp))
                have e2 := ihts us (fun t ht => ih t (by simp [ht])) (fun t ht => h1 t (by simp [ht])) (fun t ht => h2 t (by simp [ht]))
                  (by simpa using hl)
                rw [eqArgs]
                simp only [treeL, List.cons.injEq]
                rw [← e1, ← e2]
                cases hr : eqTerm M t u with
                | out => simp
                | bad => simp
                | ok b => cases b <;> simp
          by_cases hl : ts.length ≠ us.length
          · rw [if_pos hl]
            constructor
            · intro h; injection h with h; cases h
            · intro h
              simp only [tree, Tree.app.injEq, treeL_map] at h
              have := congrArg List.length h
              rw [List.length_map, List.length_map] at this
              exact absurd this hl
          · rw [if_neg hl, key ts us ih h2 h4 (by omega)]
            simp [tree]

theorem equalTerm_iff {M : Mem} {x y : Term} (hx : Fine M x) (hy : Fine M y) : equalTerm M x y = .ok true ↔ tree M x = tree M y := by
  rw [equalTerm]
  by_cases hs : x.same y = true
  · rw [if_pos hs, same_eq hx hy hs]; simp
  · rw [if_neg hs]
    by_cases hr : (x.isRec && !y.isRec) = true
    · rw [if_pos hr]
      cases hx with
      | var _ => simp [Term.isRec] at hr
      | con _ => simp [Term.isRec] at hr
      | app _ _ =>
        cases hy with
        | var _ => simp [tree]
        | con _ => simp [tree]
        | app _ _ => simp [Term.isRec] at hr
    · rw [if_neg hr, eqTerm_iff hx hy]

/-! ## Matching -/

/-- As `Inv`, without the order among variables: here values are not followed. -/
structure MInv (M : Mem) (s : St) : Prop where
  fine : ∀ n t, s.bank n = some t → Fine M t
  mem : ∀ n, n ∈ s.stack ↔ s.bank n ≠ none
  nodup : s.stack.Nodup
  lt : ∀ n, n ∈ s.stack → n < NV

theorem minv_clear (M : Mem) : MInv M St.clear := ⟨(inv_clear M).fine, (inv_clear M).mem, (inv_clear M).nodup, (inv_clear M).lt⟩

/-- The substitution gives the variables their values. -/
def Binds (M : Mem) (θ : Nat → Tree) (s : St) : Prop := ∀ n t, s.bank n = some t → θ n = tree M t

theorem mset_ok {M : Mem} {s : St} (I : MInv M s) {n : Nat} {t : Term} (hn : n < NV) (hb : s.bank n = none) :
    s.set n t = .ok (s.upd n t) := by
  have hnot : n ∉ s.stack := fun h => (I.mem n).1 h hb
  have hnd : (n :: s.stack).Nodup := List.nodup_cons.2 ⟨hnot, I.nodup⟩
  have hsub : (n :: s.stack) ⊆ List.range NV := by
    intro m hm
    rw [List.mem_range]
    rcases List.mem_cons.1 hm with h | h
    · rw [h]; exact hn
    · exact I.lt m h
  have := (List.subperm_of_subset hnd hsub).length_le
  rw [List.length_range, List.length_cons] at this
  rw [St.set, if_pos ⟨hn, this⟩, St.upd]

theorem mupd_inv {M : Mem} {s : St} (I : MInv M s) {n : Nat} {t : Term} (hn : n < NV) (hb : s.bank n = none) (hf : Fine M t) :
    MInv M (s.upd n t) where
  fine m w h := by
    by_cases hm : m = n
    · subst hm; rw [upd_same] at h; injection h with h; subst h; exact hf
    · rw [upd_other hm] at h; exact I.fine m w h
  mem m := by
    by_cases hm : m = n
    · subst hm; rw [upd_same]; simp [St.upd]
    · rw [upd_other hm, ← I.mem m]; simp [St.upd, hm]
  nodup := List.nodup_cons.2 ⟨fun h => (I.mem n).1 h hb, I.nodup⟩
  lt m hm := by
    rcases List.mem_cons.1 hm with h | h
    · rw [h]; exact hn
    · exact I.lt m h

/-- `s'` is `s` with further bindings. -/
structure Grows (M : Mem) (s s' : St) : Prop where
  inv : MInv M s'
  stack : ∃ new, s'.stack = new ++ s.stack
  keep : ∀ n t, s.bank n = some t → s'.bank n = some t

theorem Grows.refl {M : Mem} {s : St} (I : MInv M s) : Grows M s s := ⟨I, ⟨[], rfl⟩, fun _ _ h => h⟩
theorem Grows.trans {M : Mem} {s s1 s2 : St} (G : Grows M s s1) (H : Grows M s1 s2) : Grows M s s2 := by
  obtain ⟨n1, h1⟩ := G.stack
  obtain ⟨n2, h2⟩ := H.stack
  exact ⟨H.inv, ⟨n2 ++ n1, by rw [h2, h1, List.append_assoc]⟩, fun n t h => H.keep n t (G.keep n t h)⟩
theorem Grows.binds {M : Mem} {s s' : St} (G : Grows M s s') {θ : Nat → Tree} (h : Binds M θ s') : Binds M θ s :=
  fun n t hn => h n t (G.keep n t hn)

theorem grows_upd {M : Mem} {s : St} (I : MInv M s) {n : Nat} {t : Term} (hn : n < NV) (hb : s.bank n = none) (hf : Fine M t) :
    Grows M s (s.upd n t) := by
  refine ⟨mupd_inv I hn hb hf, ⟨[n], rfl⟩, fun m w h => ?_⟩
  have : m ≠ n := fun e => by rw [e, hb] at h; cases h
  rw [upd_other this]; exact h

theorem upd_binds {M : Mem} {s : St} {n : Nat} {t : Term} {θ : Nat → Tree} (hb : s.bank n = none) :
    Binds M θ (s.upd n t) ↔ Binds M θ s ∧ θ n = tree M t := by
  constructor
  · intro h
    refine ⟨fun m w hm => ?_, h n t (upd_same s n t)⟩
    have : m ≠ n := fun h => by rw [h, hb] at hm; cases hm
    exact h m w (by rw [upd_other this]; exact hm)
  · rintro ⟨h1, h2⟩ m w hm
    by_cases hmn : m = n
    · subst hmn; rw [upd_same] at hm; injection hm with hm; subst hm; exact h2
    · rw [upd_other hmn] at hm; exact h1 m w hm

/-- Everything that is not bad: the result of matching, for one word. -/
structure MatchSays (M : Mem) (x y : Term) (s : St) (b : Bool) (s' : St) : Prop where
  grows : Grows M s s'
  sound : b = true → ∀ θ, Binds M θ s' → (tree M x).subst θ = tree M y
  complete : ∀ θ, Binds M θ s → (tree M x).subst θ = tree M y → b = true ∧ Binds M θ s'

/-- The same for lists. -/
structure MatchSaysL (M : Mem) (xs ys : List Term) (s : St) (b : Bool) (s' : St) : Prop where
  grows : Grows M s s'
  sound : b = true → ∀ θ, Binds M θ s' → Tree.substL θ (treeL M xs) = treeL M ys
  complete : ∀ θ, Binds M θ s → Tree.substL θ (treeL M xs) = treeL M ys → b = true ∧ Binds M θ s'

theorem matchArgs_says {M : Mem} : ∀ (ts us : List Term) (s : St) (b : Bool) (s' : St),
    (∀ t, t ∈ ts → ∀ (y : Term) (s : St) (b : Bool) (s' : St), Fine M t → Fine M y → MInv M s → matchTerm M t y s = .ok (b, s') →
      MatchSays M t y s b s') →
    (∀ t, t ∈ ts → Fine M t) → (∀ t, t ∈ us → Fine M t) → ts.length = us.length → MInv M s → matchArgs M ts us s = .ok (b, s') →
    MatchSaysL M ts us s b s'
  | [], [], s, b, s', _, _, _, _, I, h => by
    rw [matchArgs] at h
    · injection h with h; injection h with e1 e2; subst e1; subst e2
      exact ⟨.refl I, fun _ _ _ => rfl, fun _ hb _ => ⟨rfl, hb⟩⟩
    · intros; simp_all
  | [], _ :: _, _, _, _, _, _, _, hl, _, _ => by simp at hl
  | _ :: _, [], _, _, _, _, _, _, hl, _, _ => by simp at hl
  | t :: ts, u :: us, s, b, s', ih, h1, h2, hl, I, h => by
    rw [matchArgs] at h
    obtain ⟨⟨b1, s1⟩, hr, h⟩ := bind_eq_ok h
    have P := ih t (by simp) u s b1 s1 (h1 t (by simp)) (h2 u (by simp)) I hr
    cases b1 with
    | false =>
      rw [if_neg (by simp)] at h
      injection h with h; injection h with e1 e2; subst e1; subst e2
      refine ⟨P.grows, fun hb => (by cases hb), fun θ hb he => ?_⟩
      simp only [treeL, Tree.substL, List.cons.injEq] at he
      exact absurd (P.complete θ hb he.1).1 (by simp)
    | true =>
      rw [if_pos rfl] at h
      have Q := matchArgs_says ts us s1 b s' (fun t ht => ih t (by simp [ht])) (fun t ht => h1 t (by simp [ht]))
        (fun t ht => h2 t (by simp [ht])) (by simpa using hl) P.grows.inv h
      refine ⟨P.grows.trans Q.grows, fun hb θ ht => ?_, fun θ hb he => ?_⟩
      · simp only [treeL, Tree.substL]
        rw [P.sound rfl θ (Q.grows.binds ht), Q.sound hb θ ht]
      · simp only [treeL, Tree.substL, List.cons.injEq] at he
        exact Q.complete θ (P.complete θ hb he.1).2 he.2

theorem matchTerm_says {M : Mem} (x : Term) : ∀ (y : Term) (s : St) (b : Bool) (s' : St), Fine M x → Fine M y → MInv M s →
    matchTerm M x y s = .ok (b, s') → MatchSays M x y s b s' := by
  induction x using Term.ind with
  | hv n =>
    intro y s b s' hx hy I h
    cases hx with
    | var hn =>
      rw [matchTerm, St.get, if_pos hn, bind_ok] at h
      cases hb : s.bank n with
      | none =>
        rw [hb] at h
        simp only [mset_ok I hn hb, bind_ok] at h
        injection h with h; injection h with e1 e2; subst e1; subst e2
        exact ⟨grows_upd I hn hb hy, fun _ θ ht => ((upd_binds hb).1 ht).2, fun θ ht he => ⟨rfl, (upd_binds hb).2 ⟨ht, he⟩⟩⟩
      | some v =>
        rw [hb] at h
        obtain ⟨b', hr, h⟩ := bind_eq_ok h
        injection h with h; injection h with e1 e2; subst e1; subst e2
        have hv := eqTerm_iff (I.fine n v hb) hy
        refine ⟨.refl I, fun ht θ hθ => ?_, fun θ hθ he => ?_⟩
        · subst ht
          show θ n = _
          rw [hθ n v hb]
          exact hv.1 hr
        · have : tree M v = tree M y := by rw [← hθ n v hb]; exact he
          have := hv.2 this
          rw [hr] at this
          injection this with this
          exact ⟨this, hθ⟩
  | hc c =>
    intro y s b s' hx hy I h
    rw [matchTerm] at h
    obtain ⟨b', hr, h⟩ := bind_eq_ok h
    have hv := eqTerm_iff hx hy
    cases b' with
    | true =>
      rw [if_pos rfl] at h
      injection h with h; injection h with e1 e2; subst e1; subst e2
      exact ⟨.refl I, fun _ θ _ => hv.1 hr, fun θ ht _ => ⟨rfl, ht⟩⟩
    | false =>
      rw [if_neg (by simp)] at h
      by_cases hi : y.isRec = true
      · rw [if_pos hi] at h; cases h
      · rw [if_neg hi] at h
        injection h with h; injection h with e1 e2; subst e1; subst e2
        refine ⟨.refl I, fun ht => (by cases ht), fun θ ht he => ?_⟩
        have := hv.2 he
        rw [hr] at this
        injection this with this
        cases this
  | hn => intro y s b s' hx; cases hx
  | ha a ts ih =>
    intro y s b s' hx hy I h
    cases hx with
    | app h1 h2 =>
      rw [matchTerm] at h
      cases hy with
      | var _ =>
        rw [if_neg (by simp [Term.isRec])] at h
        injection h with h; injection h with e1 e2; subst e1; subst e2
        exact ⟨.refl I, fun ht => (by cases ht), fun θ ht he => (by cases he)⟩
      | con _ =>
        rw [if_neg (by simp [Term.isRec])] at h
        injection h with h; injection h with e1 e2; subst e1; subst e2
        exact ⟨.refl I, fun ht => (by cases ht), fun θ ht he => (by cases he)⟩
      | @app b' us h3 h4 =>
        rw [if_pos (by simp [Term.isRec]), Term.parts, bind_ok] at h
        by_cases hl : ts.length ≠ us.length
        · rw [if_pos hl] at h
          injection h with h; injection h with e1 e2; subst e1; subst e2
          refine ⟨.refl I, fun ht => (by cases ht), fun θ ht he => ?_⟩
          simp only [tree, Tree.subst, Tree.app.injEq, treeL_map, substL_map] at he
          have := congrArg List.length he
          simp only [List.length_map] at this
          exact absurd this hl
        · rw [if_neg hl] at h
          have P := matchArgs_says ts us s b s' (fun t ht y s b s' hx hy => ih t ht y s b s' hx hy) h2 h4 (by omega) I h
          refine ⟨P.grows, fun hb θ ht => ?_, fun θ hb he => ?_⟩
          · simp only [tree, Tree.subst, Tree.app.injEq]
            exact P.sound hb θ ht
          · simp only [tree, Tree.subst, Tree.app.injEq] at he
            exact P.complete θ hb he

/-- If there is a match, the code finds it. -/
theorem matchArgs_finds {M : Mem} : ∀ (ts us : List Term) (s : St) (θ : Nat → Tree),
    (∀ t, t ∈ ts → ∀ (y : Term) (s : St) (θ : Nat → Tree), Fine M t → Fine M y → MInv M s → Binds M θ s →
      (tree M t).subst θ = tree M y → ∃ s', matchTerm M t y s = .ok (true, s')) →
    (∀ t, t ∈ ts → Fine M t) → (∀ t, t ∈ us → Fine M t) → MInv M s → Binds M θ s →
    Tree.substL θ (treeL M ts) = treeL M us → ∃ s', matchArgs M ts us s = .ok (true, s')
  | [], us, s, θ, _, _, _, _, _, _ => ⟨s, by rw [matchArgs]; intros; simp_all⟩
  | _ :: _, [], s, θ, _, _, _, _, _, he => by simp [treeL, Tree.substL] at he
  | t :: ts, u :: us, s, θ, ih, h1, h2, I, hb, he => by
    simp only [treeL, Tree.substL, List.cons.injEq] at he
    obtain ⟨s1, hr⟩ := ih t (by simp) u s θ (h1 t (by simp)) (h2 u (by simp)) I hb he.1
    have P := matchTerm_says t u s true s1 (h1 t (by simp)) (h2 u (by simp)) I hr
    obtain ⟨s2, hr2⟩ := matchArgs_finds ts us s1 θ (fun t ht => ih t (by simp [ht])) (fun t ht => h1 t (by simp [ht]))
      (fun t ht => h2 t (by simp [ht])) P.grows.inv (P.complete θ hb he.1).2 he.2
    exact ⟨s2, by rw [matchArgs, hr, bind_ok, if_pos rfl]; exact hr2⟩

theorem matchTerm_finds {M : Mem} (x : Term) : ∀ (y : Term) (s : St) (θ : Nat → Tree), Fine M x → Fine M y → MInv M s → Binds M θ s →
    (tree M x).subst θ = tree M y → ∃ s', matchTerm M x y s = .ok (true, s') := by
  induction x using Term.ind with
  | hv n =>
    intro y s θ hx hy I ht he
    cases hx with
    | var hn =>
      simp only [matchTerm, St.get, if_pos hn, bind_ok]
      cases hb : s.bank n with
      | none => exact ⟨s.upd n y, by simp only [mset_ok I hn hb, bind_ok]⟩
      | some v =>
        have : tree M v = tree M y := by rw [← ht n v hb]; exact he
        exact ⟨s, by simp only [(eqTerm_iff (I.fine n v hb) hy).2 this, bind_ok]⟩
  | hc c =>
    intro y s θ hx hy I ht he
    refine ⟨s, ?_⟩
    rw [matchTerm, (eqTerm_iff hx hy).2 he]
    rfl
  | hn => intro y s θ hx; cases hx
  | ha a ts ih =>
    intro y s θ hx hy I ht he
    cases hx with
    | app h1 h2 =>
      cases hy with
      | var _ => cases he
      | con _ => cases he
      | @app b' us h3 h4 =>
        simp only [tree, Tree.subst, Tree.app.injEq] at he
        obtain ⟨s', hr⟩ := matchArgs_finds ts us s θ (fun t ht' y s θ hx hy => ih t ht' y s θ hx hy) h2 h4 I ht he
        refine ⟨s', ?_⟩
        have hl : ts.length = us.length := by
          simp only [treeL_map, substL_map] at he
          have := congrArg List.length he
          simpa only [List.length_map] using this
        rw [matchTerm, if_pos (by simp [Term.isRec]), Term.parts, bind_ok, if_neg (by omega)]
        exact hr

/-- The substitution that the bindings are. -/
def St.subst (M : Mem) (s : St) (n : Nat) : Tree := match s.bank n with
  | some t => tree M t
  | none => .var n

theorem subst_binds (M : Mem) (s : St) : Binds M (s.subst M) s := by
  intro n t h; simp only [St.subst, h]

theorem clearStack_eq {M : Mem} {s : St} (I : MInv M s) : s.clearStack = St.clear := by
  have : (fun m => if m ∈ s.stack then none else s.bank m) = fun _ => (none : Option Term) := by
    funext m
    by_cases h : m ∈ s.stack
    · rw [if_pos h]
    · rw [if_neg h]
      exact Classical.byContradiction fun hn => h ((I.mem m).2 hn)
  simp only [St.clearStack, St.clear, this]

theorem grows_undo {M : Mem} {s s' : St} (I : MInv M s) (G : Grows M s s') : s'.undo s.stack.length = s := by
  obtain ⟨new, hs⟩ := G.stack
  have hbank : ∀ m, (if m ∈ new then none else s'.bank m) = s.bank m := by
    intro m
    have hnd := G.inv.nodup
    rw [hs, List.nodup_append] at hnd
    by_cases h : m ∈ new
    · rw [if_pos h]
      cases hb : s.bank m with
      | none => rfl
      | some t => exact absurd rfl (hnd.2.2 m h m ((I.mem m).2 (by rw [hb]; simp)))
    · rw [if_neg h]
      cases hb : s.bank m with
      | some t => exact G.keep m t hb
      | none =>
        cases hb' : s'.bank m with
        | none => rfl
        | some t =>
          have := (G.inv.mem m).2 (by rw [hb']; simp)
          rw [hs, List.mem_append] at this
          rcases this with h' | h'
          · exact absurd h' h
          · exact absurd hb ((I.mem m).1 h')
  rw [St.undo]
  by_cases hl : s.stack.length ≠ s'.stack.length
  · rw [if_pos hl]
    have e1 : s'.stack.length - s.stack.length = new.length := by rw [hs, List.length_append]; omega
    have e2 : s'.stack.take new.length = new := by rw [hs, List.take_left']; rfl
    have e3 : s'.stack.drop new.length = s.stack := by rw [hs, List.drop_left']; rfl
    simp only [St.clearTop, e1, e2, e3, hbank]
  · rw [if_neg hl]
    have : new = [] := by
      rw [hs, List.length_append] at hl
      exact List.eq_nil_of_length_eq_zero (by omega)
    subst this
    rw [List.nil_append] at hs
    have : s'.bank = s.bank := by
      funext m
      have := hbank m
      rwa [if_neg (by simp)] at this
    cases s; cases s'; simp_all

end WG.Reason
