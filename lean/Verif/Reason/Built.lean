import Verif.Reason.ResSpec
import Verif.Reason.Unify
import Verif.Reason.Match

/-! # What building gives -/
namespace WG.Reason

/-- The same contents of the cells. -/
structure Cells (M M' : Mem) : Prop where
  int : M'.int = M.int
  dbl : M'.dbl = M.dbl
  sstr : M'.sstr = M.sstr

theorem Cells.rfl (M : Mem) : Cells M M := ⟨by rfl, by rfl, by rfl⟩
theorem Cells.trans {M M' M'' : Mem} (h : Cells M M') (h' : Cells M' M'') : Cells M M'' :=
  ⟨h'.int.trans h.int, h'.dbl.trans h.dbl, h'.sstr.trans h.sstr⟩
theorem Cells.symm {M M' : Mem} (h : Cells M M') : Cells M' M := ⟨h.int.symm, h.dbl.symm, h.sstr.symm⟩

theorem val_cells {M M' : Mem} (h : Cells M M') (c : Const) : c.val M' = c.val M := by
  cases c <;> simp [Const.val, h.int, h.dbl, h.sstr]

theorem ev_cells {D : Type} {M M' : Mem} (h : Cells M M') (A : Alg D) (ρ : Nat → D) (t : Term) : ev M' A ρ t = ev M A ρ t := by
  induction t using Term.ind with
  | hv n => rfl
  | hc c => simp only [ev, val_cells h]
  | hn => rfl
  | ha a ts ih =>
    simp only [ev, evL_map]
    congr 1
    exact List.map_congr_left ih

theorem resp_cells {D : Type} {M M' : Mem} (h : Cells M M') {A : Alg D} {ρ : Nat → D} {s : St} : Resp M' A ρ s ↔ Resp M A ρ s := by
  constructor
  · intro hr n t hn; rw [← ev_cells h]; exact hr n t hn
  · intro hr n t hn; rw [ev_cells h]; exact hr n t hn

theorem std_cells {D : Type} {cfg : Cfg} {M M' : Mem} (h : Cells M M') {I : Interp D} (hI : I.Std cfg M) : I.Std cfg M' := by
  obtain ⟨h1, h2, h3, h4, h5⟩ := hI
  constructor
  · rw [val_cells h]; exact h1
  · rw [val_cells h]; exact h2
  · simp only [val_cells h]; exact h3
  · simp only [val_cells h]; exact h4
  · simp only [val_cells h]; exact h5

theorem eval_tree {D : Type} {M : Mem} (A : Alg D) (ρ : Nat → D) {x y : Term} (h : tree M x = tree M y) : ev M A ρ x = ev M A ρ y := by
  revert y
  induction x using Term.ind with
  | hv n => intro y h; cases y <;> simp_all [tree, ev]
  | hc c =>
    intro y h
    cases y <;> simp_all [tree, ev]
  | hn => intro y h; cases y <;> simp_all [tree, ev]
  | ha a ts ih =>
    intro y h
    cases y with
    | app b us =>
      simp only [tree, Tree.app.injEq, treeL_map] at h
      simp only [ev, evL_map]
      congr 1
      revert us
      induction ts with
      | nil => intro us h; cases us <;> simp_all
      | cons t ts iht =>
        intro us h
        cases us with
        | nil => simp at h
        | cons u us =>
          simp only [List.map_cons, List.cons.injEq] at h ⊢
          exact ⟨ih t (by simp) h.1, iht (fun t ht => ih t (by simp [ht])) us h.2⟩
    | _ => simp [tree] at h

theorem compute_sound {D : Type} {cfg : Cfg} {M : Mem} {I : Interp D} (hI : I.Std cfg M) {us : List Term} (hf : ∀ u, u ∈ us → Fine M u)
    {c : Const} (h : compute cfg M us = .ok (some c)) (ρ : Nat → D) : I.alg.app (evL M I.alg ρ us) = I.alg.con (c.val M) := by
  unfold compute at h
  split at h
  · cases h
  · rename_i k a b ds
    by_cases h1 : k = aPlus
    · rw [if_pos h1] at h
      unfold computePlus at h
      split at h
      · injection h with h
        rw [h1]
        simp only [evL, ev]
        exact hI.sum _ _ _ _ h
      · cases h
    · rw [if_neg h1] at h
      by_cases h2 : k = aEqual
      · rw [if_pos h2] at h
        unfold computeEqual at h
        obtain ⟨e, he, h⟩ := bind_eq_ok h
        have hq := equalTerm_iff (hf a (by simp)) (hf b (by simp))
        cases e with
        | true =>
          rw [if_pos rfl] at h
          injection h with h; injection h with h; subst h
          have := hq.1 he
          rw [h2]
          simp only [evL, eval_tree I.alg ρ this]
          exact hI.equal _ _
        | false =>
          rw [if_neg (by simp)] at h
          split at h
          · rename_i c1 d1 _
            injection h with h
            by_cases ho : (c1.opaque cfg || d1.opaque cfg) = true
            · rw [if_pos ho] at h; cases h
            · rw [if_neg ho] at h
              injection h with h; subst h
              rw [h2]
              simp only [evL, ev]
              simp only [Bool.or_eq_true, not_or, Bool.not_eq_true] at ho
              refine hI.differ _ _ _ ho.1 ho.2 fun hv => ?_
              have := hq.2 (by simp only [tree, hv])
              rw [he] at this
              cases this
          · cases h
      · rw [if_neg h2] at h; cases h
  · cases h

/-! ## Memory -/

/-- `b'` has everything that `b` has. -/
structure Ext (b b' : Bld) : Prop where
  cells : Cells b.mem b'.mem
  next : b.next ≤ b'.next
  parts : ∀ a, a < b.next → b'.mem.parts a = b.mem.parts a
  blank : Blank b'.mem b'.next

theorem Ext.trans {b b' b'' : Bld} (h : Ext b b') (h' : Ext b' b'') : Ext b b'' :=
  ⟨h.cells.trans h'.cells, Nat.le_trans h.next h'.next,
    fun a ha => (h'.parts a (Nat.lt_of_lt_of_le ha h.next)).trans (h.parts a ha), h'.blank⟩

theorem fine_below {M : Mem} {N : Nat} (hb : Blank M N) {a : Nat} {ts : List Term} (h : Fine M (.app a ts)) : a < N := by
  cases h with
  | app h1 h2 =>
    by_contra hn
    have := hb a (by omega)
    rw [this] at h1
    subst h1
    have := h2 .nul (by simp)
    cases this

theorem fine_ext {b b' : Bld} (hb : Blank b.mem b.next) (h : Ext b b') {t : Term} (ht : Fine b.mem t) : Fine b'.mem t := by
  induction ht with
  | var h => exact .var h
  | con c => exact .con c
  | @app a ts h1 h2 ih =>
    have := fine_below hb (.app h1 h2)
    exact .app ((h.parts a this).trans h1) ih

theorem inv_fine {M M' : Mem} {s : St} (I : Inv M s) (h : ∀ t, Fine M t → Fine M' t) : Inv M' s :=
  ⟨I.wf, fun n t hn => h t (I.fine n t hn), I.mem, I.nodup, I.lt⟩

/-- What building keeps. -/
structure BOK (b : Bld) : Prop where
  inv : Inv b.mem b.st
  blank : Blank b.mem b.next
  dom : ∀ n, 4000 ≤ n → b.st.bank n = none
  vc : b.vc ≤ 1000

/-- The new record is filled. -/
theorem put_ext {b : Bld} {a : Nat} {us : List Term} (hb : Blank b.mem b.next) (ha : a < b.next) :
    Cells b.mem (b.mem.put a us) ∧ Blank (b.mem.put a us) b.next ∧ (b.mem.put a us).parts a = us ∧
    ∀ a', a' ≠ a → (b.mem.put a us).parts a' = b.mem.parts a' := by
  refine ⟨⟨rfl, rfl, rfl⟩, fun a' h => ?_, if_pos rfl, fun a' h => if_neg h⟩
  show (if a' = a then us else b.mem.parts a') = _
  rw [if_neg (by omega)]
  exact hb a' h

theorem fine_put {M : Mem} {a : Nat} (ha : M.parts a = [.nul]) (us : List Term) {t : Term} (ht : Fine M t) : Fine (M.put a us) t := by
  induction ht with
  | var h => exact .var h
  | con c => exact .con c
  | @app a' ts h1 h2 ih =>
    refine .app ?_ ih
    show (if a' = a then us else M.parts a') = ts
    rw [if_neg]
    · exact h1
    · intro e
      subst e
      rw [ha] at h1
      subst h1
      have := h2 .nul (by simp)
      cases this

/-! ## Renaming -/

/-- How the values for the old variables go with those for the new ones. -/
def Link {D : Type} (B : Nat) (ρ ρ' : Nat → D) : Prop := ∀ k, k < 1000 → ρ (4000 + k) = ρ' (B * 1000 + k)

structure Grow (b b' : Bld) : Prop where
  ext : Ext b b'
  ok : BOK b'
  keep : ∀ n t, b.st.bank n = some t → b'.st.bank n = some t

theorem Grow.trans {b b' b'' : Bld} (h : Grow b b') (h' : Grow b' b'') : Grow b b'' :=
  ⟨h.ext.trans h'.ext, h'.ok, fun n t hn => h'.keep n t (h.keep n t hn)⟩

theorem BOK.refl {b : Bld} (h : BOK b) : Grow b b := ⟨⟨Cells.rfl _, Nat.le_refl _, fun _ _ => rfl, h.blank⟩, h, fun _ _ h => h⟩

theorem Grow.resp {D : Type} {b b' : Bld} (h : Grow b b') {A : Alg D} {ρ : Nat → D} (hr : Resp b'.mem A ρ b'.st) : Resp b.mem A ρ b.st :=
  (resp_cells h.ext.cells).1 (resp_keep h.keep hr)

/-- `t` is `x` with renamed variables, computed. -/
structure Says (cfg : Cfg) (B : Nat) (b : Bld) (x t : Term) (b' : Bld) : Prop where
  grow : Grow b b'
  fine : Fine b'.mem t
  vars : ∀ v, v ∈ vars t → v < 4000
  addr : ∀ a us, t = .app a us → b.next ≤ a
  eval : ∀ (D : Type) (I : Interp D) (ρ ρ' : Nat → D), I.Std cfg b.mem → Resp b'.mem I.alg ρ b'.st → Link B ρ ρ' →
    ev b'.mem I.alg ρ' t = ev b.mem I.alg ρ x

structure SaysL (cfg : Cfg) (B : Nat) (b : Bld) (xs ts : List Term) (b' : Bld) : Prop where
  grow : Grow b b'
  fine : ∀ t, t ∈ ts → Fine b'.mem t
  vars : ∀ v, v ∈ varsL ts → v < 4000
  eval : ∀ (D : Type) (I : Interp D) (ρ ρ' : Nat → D), I.Std cfg b.mem → Resp b'.mem I.alg ρ b'.st → Link B ρ ρ' →
    evL b'.mem I.alg ρ' ts = evL b.mem I.alg ρ xs

theorem buildLoop_says {cfg : Cfg} {B : Nat} {bd : Bld → Term → Res (Option (Term × Bld))}
    (hbd : ∀ b x t b', BOK b → Fine b.mem x → bd b x = .ok (some (t, b')) → Says cfg B b x t b') :
    ∀ (xs : List Term) (b : Bld) (ts : List Term) (b' : Bld), BOK b → (∀ x, x ∈ xs → Fine b.mem x) →
    buildLoop bd b xs = .ok (some (ts, b')) → SaysL cfg B b xs ts b'
  | [], b, ts, b', hb, _, h => by
    injection h with h; injection h with h; injection h with e1 e2; subst e1; subst e2
    exact ⟨hb.refl, fun t ht => (by cases ht), fun v hv => (by simp [varsL] at hv), fun _ _ _ _ _ _ _ => rfl⟩
  | x :: xs, b, ts, b', hb, hx, h => by
    rw [buildLoop] at h
    obtain ⟨r, hr, h⟩ := bind_eq_ok h
    cases r with
    | none => cases h
    | some p =>
      obtain ⟨u, b1⟩ := p
      obtain ⟨r, hr', h⟩ := bind_eq_ok h
      cases r with
      | none => cases h
      | some p =>
        obtain ⟨us, b2⟩ := p
        injection h with h; injection h with h; injection h with e1 e2; subst e1; subst e2
        have P := hbd b x u b1 hb (hx x (by simp)) hr
        have Q := buildLoop_says hbd xs b1 us b2 P.grow.ok (fun y hy => fine_ext hb.blank P.grow.ext (hx y (by simp [hy]))) hr'
        refine ⟨P.grow.trans Q.grow, ?_, ?_, ?_⟩
        · intro t ht
          rcases List.mem_cons.1 ht with e | ht
          · subst e; exact fine_ext P.grow.ok.blank Q.grow.ext P.fine
          · exact Q.fine t ht
        · intro v hv
          simp only [varsL, List.mem_append] at hv
          exact hv.elim (P.vars v) (Q.vars v)
        · intro D I ρ ρ' hI hR hL
          simp only [evL]
          rw [Q.eval D I ρ ρ' (std_cells P.grow.ext.cells hI) hR hL, ev_cells Q.grow.ext.cells, P.eval D I ρ ρ' hI (Q.grow.resp hR) hL]
          congr 1
          rw [evL_map, evL_map]
          exact List.map_congr_left fun y _ => ev_cells P.grow.ext.cells _ _ _

theorem buildVar_says {cfg : Cfg} {B : Nat} (hB : B ≤ 3) {b b' : Bld} {n : Nat} {t : Term} (hb : BOK b) (hn : n < NV)
    (hu : b.st.bank n = none) (h : buildVar (some B) b n = .ok (some (t, b'))) : Says cfg B b (.var n) t b' := by
  simp only [buildVar] at h
  by_cases hlt : n < 4000
  · rw [if_pos hlt] at h
    by_cases hv : 1000 ≤ b.vc
    · rw [if_pos hv] at h; cases h
    · rw [if_neg hv, set_ok hb.inv hn hu, bind_ok] at h
      injection h with h; injection h with h; injection h with e1 e2; subst e1; subst e2
      have hm : b.st.bank (b.vc + 4000) = none := hb.dom _ (by omega)
      have hno := no_reach_var (n := n) hm (by omega)
      refine ⟨⟨⟨Cells.rfl _, Nat.le_refl _, fun _ _ => rfl, hb.blank⟩, ⟨upd_inv hb.inv hn hu (.var (by unfold NV; omega)) hno, hb.blank,
        fun m hm => ?_, ?_⟩, fun m w hw => ?_⟩, .var (by unfold NV; omega), fun v hv => ?_, fun a us e => (by cases e), ?_⟩
      · show (b.st.upd n _).bank m = none
        rw [upd_other (by omega)]; exact hb.dom m hm
      · show b.vc + 1 ≤ 1000
        omega
      · show (b.st.upd n _).bank m = some w
        rw [upd_other (fun e => by rw [e, hu] at hw; cases hw)]; exact hw
      · simp only [Reason.vars, List.mem_singleton] at hv; omega
      · intro D I ρ ρ' _ hR hL
        have := hR n _ (upd_same b.st n _)
        simp only [ev] at this ⊢
        rw [this, Nat.add_comm b.vc 4000, hL b.vc (by omega)]
  · rw [if_neg hlt] at h
    injection h with h; injection h with h; injection h with e1 e2; subst e1; subst e2
    unfold NV at hn
    refine ⟨hb.refl, .var (by unfold NV; omega), fun v hv => ?_, fun a us e => (by cases e), ?_⟩
    · simp only [Reason.vars, List.mem_singleton] at hv; omega
    · intro D I ρ ρ' _ _ hL
      show ρ' (B * 1000 + (n - 4000)) = ρ n
      rw [← hL (n - 4000) (by omega)]
      exact congrArg ρ (by omega)

theorem buildRec_says {cfg : Cfg} {comp : Bool} {B : Nat} {b b1 b' : Bld} {a0 : Nat} {ts us : List Term} {t : Term} (hb : BOK b)
    (P : SaysL cfg B { b with next := b.next + 1 } ts us b1) (h : buildRec cfg comp b.next us b1 = .ok (some (t, b'))) :
    Says cfg B b (.app a0 ts) t b' := by
  have hn : b.next < b1.next := P.grow.ext.next
  have hp : b1.mem.parts b.next = [.nul] := (P.grow.ext.parts b.next (Nat.lt_succ_self _)).trans (hb.blank _ (Nat.le_refl _))
  obtain ⟨h1, h2, h3, h4⟩ := put_ext (us := us) P.grow.ok.blank hn
  have hfp := fun t (ht : Fine b1.mem t) => fine_put hp us ht
  have hgrow : Grow b { b1 with mem := b1.mem.put b.next us } := by
    refine ⟨⟨P.grow.ext.cells.trans h1, Nat.le_of_lt hn, fun a ha => ?_, h2⟩, ⟨inv_fine P.grow.ok.inv hfp, h2, P.grow.ok.dom,
      P.grow.ok.vc⟩, P.grow.keep⟩
    show (b1.mem.put b.next us).parts a = _
    rw [h4 a (by omega)]
    exact P.grow.ext.parts a (Nat.lt_succ_of_lt ha)
  have happ : Says cfg B b (.app a0 ts) (.app b.next us) { b1 with mem := b1.mem.put b.next us } := by
    refine ⟨hgrow, .app h3 fun u hu => hfp u (P.fine u hu), P.vars, fun a us e => ?_, fun D I ρ ρ' hI hR hL => ?_⟩
    · injection e with e _; omega
    · simp only [ev]
      have := P.eval D I ρ ρ' hI ((resp_cells h1).1 hR) hL
      rw [← this, evL_map, evL_map]
      congr 1
      exact List.map_congr_left fun y _ => ev_cells h1 _ _ _
  rw [buildRec] at h
  cases comp with
  | false =>
    rw [if_neg (by simp)] at h
    injection h with h; injection h with h; injection h with e1 e2; subst e1; subst e2
    exact happ
  | true =>
    rw [if_pos rfl] at h
    obtain ⟨r, hr, h⟩ := bind_eq_ok h
    cases r with
    | none =>
      injection h with h; injection h with h; injection h with e1 e2; subst e1; subst e2
      exact happ
    | some c =>
      injection h with h; injection h with h; injection h with e1 e2; subst e1; subst e2
      refine ⟨hgrow, .con c, fun v hv => (by simp [Reason.vars] at hv), fun a us e => (by cases e), fun D I ρ ρ' hI hR hL => ?_⟩
      have hI1 := std_cells P.grow.ext.cells hI
      have := compute_sound hI1 P.fine hr ρ'
      rw [P.eval D I ρ ρ' hI ((resp_cells h1).1 hR) hL] at this
      simp only [ev]
      rw [val_cells h1, ← this]

theorem build_says {cfg : Cfg} {comp : Bool} {B : Nat} (hB : B ≤ 3) : ∀ (f : Nat) (b : Bld) (x t : Term) (b' : Bld), BOK b →
    Fine b.mem x → build cfg comp (some B) f b x = .ok (some (t, b')) → Says cfg B b x t b'
  | 0, _, _, _, _, _, _, h => by cases h
  | f + 1, b, x, t, b', hb, hx, h => by
    rw [build] at h
    obtain ⟨y, hy, h⟩ := bind_eq_ok h
    have d := deref_ok hb.inv hx hy
    have key : Says cfg B b y t b' := by
      cases hd : d.fine with
      | @var n hn => exact buildVar_says hB hb hn (d.unbound n rfl) h
      | con c =>
        injection h with h; injection h with h; injection h with e1 e2; subst e1; subst e2
        exact ⟨hb.refl, .con c, fun v hv => (by simp [Reason.vars] at hv), fun a us e => (by cases e), fun _ _ _ _ _ _ _ => rfl⟩
      | @app a ts h1 h2 =>
        simp only at h
        by_cases hr : cfg.room b.next = true
        · rw [if_pos hr] at h
          obtain ⟨r, hr', h⟩ := bind_eq_ok h
          cases r with
          | none => cases h
          | some p =>
            obtain ⟨us, b1⟩ := p
            have hb0 : BOK { b with next := b.next + 1 } :=
              ⟨hb.inv, fun a ha => hb.blank a (Nat.le_trans (Nat.le_succ _) ha), hb.dom, hb.vc⟩
            exact buildRec_says hb (buildLoop_says (build_says hB f) ts _ us b1 hb0 h2 hr') h
        · rw [if_neg hr] at h; cases h
    refine ⟨key.grow, key.fine, key.vars, key.addr, fun D I ρ ρ' hI hR hL => ?_⟩
    rw [key.eval D I ρ ρ' hI hR hL]
    exact (d.eval D I.alg ρ (key.grow.resp hR)).symm

end WG.Reason
