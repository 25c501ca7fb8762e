import Verif.Reason.Spec
import Mathlib.Logic.Relation

/-! # Values of terms in any algebra -/
namespace WG.Reason

@[simp] theorem bind_ok {α β : Type} (a : α) (k : α → Res β) : (Res.ok a).bind k = k a := rfl
@[simp] theorem bind_bad {α β : Type} (k : α → Res β) : (Res.bad).bind k = .bad := rfl
@[simp] theorem bind_out {α β : Type} (k : α → Res β) : (Res.out).bind k = .out := rfl

theorem bind_eq_ok {α β : Type} {r : Res α} {k : α → Res β} {b : β} (h : r.bind k = .ok b) : ∃ a, r = .ok a ∧ k a = .ok b := by
  cases r with
  | out => cases h
  | bad => cases h
  | ok a => exact ⟨a, rfl, h⟩

theorem bind_ne_bad {α β : Type} {r : Res α} {k : α → Res β} (h : r ≠ .bad) (hk : ∀ a, r = .ok a → k a ≠ .bad) : r.bind k ≠ .bad := by
  cases r with
  | out => simp
  | bad => exact absurd rfl h
  | ok a => exact hk a rfl

/-- A place to interpret terms in. -/
structure Alg (D : Type) where
  con : Val → D
  app : List D → D

mutual
def ev {D : Type} (M : Mem) (A : Alg D) (ρ : Nat → D) : Term → D
  | .var n => ρ n
  | .con c => A.con (c.val M)
  | .nul => A.con .null
  | .app _ ts => A.app (evL M A ρ ts)
def evL {D : Type} (M : Mem) (A : Alg D) (ρ : Nat → D) : List Term → List D
  | [] => []
  | t :: ts => ev M A ρ t :: evL M A ρ ts
end

mutual
def vars : Term → List Nat
  | .var n => [n]
  | .con _ => []
  | .nul => []
  | .app _ ts => varsL ts
def varsL : List Term → List Nat
  | [] => []
  | t :: ts => vars t ++ varsL ts
end

theorem mem_varsL {v : Nat} {ts : List Term} : v ∈ varsL ts ↔ ∃ t, t ∈ ts ∧ v ∈ vars t := by
  induction ts with
  | nil => simp [varsL]
  | cons t ts ih => simp [varsL, ih]

/-- Induction over terms. -/
theorem Term.ind {P : Term → Prop} (hv : ∀ n, P (.var n)) (hc : ∀ c, P (.con c)) (hn : P .nul)
    (ha : ∀ a ts, (∀ t, t ∈ ts → P t) → P (.app a ts)) (t : Term) : P t :=
  Term.rec (motive_1 := P) (motive_2 := fun ts => ∀ t, t ∈ ts → P t) hv hc hn (fun a ts ih => ha a ts ih)
    (fun t ht => absurd ht (by simp))
    (fun t ts iht ihts u hu => by
      rcases List.mem_cons.1 hu with h | h
      · rw [h]; exact iht
      · exact ihts u h) t

theorem evL_map {D : Type} (M : Mem) (A : Alg D) (ρ : Nat → D) (ts : List Term) : evL M A ρ ts = ts.map (ev M A ρ) := by
  induction ts with
  | nil => rfl
  | cons t ts ih => simp [evL, ih]

theorem treeL_map (M : Mem) (ts : List Term) : treeL M ts = ts.map (tree M) := by
  induction ts with
  | nil => rfl
  | cons t ts ih => simp [treeL, ih]

theorem substL_map (θ : Nat → Tree) (ts : List Tree) : Tree.substL θ ts = ts.map (Tree.subst θ) := by
  induction ts with
  | nil => rfl
  | cons t ts ih => simp [Tree.substL, ih]

theorem ev_congr {D : Type} (M : Mem) (A : Alg D) (ρ ρ' : Nat → D) (t : Term) :
    (∀ v, v ∈ vars t → ρ v = ρ' v) → ev M A ρ t = ev M A ρ' t := by
  induction t using Term.ind with
  | hv n => intro h; exact h n (by simp [vars])
  | hc c => intro _; rfl
  | hn => intro _; rfl
  | ha a ts ih =>
    intro h
    simp only [ev, evL_map]
    congr 1
    apply List.map_congr_left
    intro t ht
    exact ih t ht fun v hv => h v (by simp only [vars]; exact mem_varsL.2 ⟨t, ht, hv⟩)

/-- Trees are an algebra. -/
def treeAlg : Alg Tree := ⟨.con, .app⟩

theorem ev_tree (M : Mem) (θ : Nat → Tree) (t : Term) : ev M treeAlg θ t = (tree M t).subst θ := by
  induction t using Term.ind with
  | hv n => rfl
  | hc c => rfl
  | hn => rfl
  | ha a ts ih =>
    simp only [ev, tree, Tree.subst, evL_map, treeL_map, substL_map, List.map_map]
    show Tree.app _ = Tree.app _
    congr 1
    apply List.map_congr_left
    intro t ht
    exact ih t ht

/-- An algebra in which different terms are different. -/
structure Free {D : Type} (A : Alg D) where
  con_inj : ∀ v w, A.con v = A.con w → v = w
  app_inj : ∀ ds es, A.app ds = A.app es → ds = es
  con_app : ∀ v ds, A.con v ≠ A.app ds
  size : D → Nat
  size_lt : ∀ ds d, d ∈ ds → size d < size (A.app ds)

mutual
def Tree.size : Tree → Nat
  | .var _ => 1
  | .con _ => 1
  | .app ts => 1 + Tree.sizeL ts
def Tree.sizeL : List Tree → Nat
  | [] => 0
  | t :: ts => t.size + Tree.sizeL ts
end

theorem Tree.size_mem {t : Tree} {ts : List Tree} (h : t ∈ ts) : t.size ≤ Tree.sizeL ts := by
  induction ts with
  | nil => cases h
  | cons u us ih =>
    rcases List.mem_cons.1 h with h | h
    · subst h; simp [Tree.sizeL]
    · have := ih h; simp only [Tree.sizeL]; omega

def treeFree : Free treeAlg where
  con_inj _ _ h := Tree.con.inj h
  app_inj _ _ h := Tree.app.inj h
  con_app _ _ h := by cases h
  size := Tree.size
  size_lt ds d h := by
    have := Tree.size_mem h
    show d.size < 1 + Tree.sizeL ds
    omega

/-! ## Words -/

theorem same_eq {M : Mem} {x y : Term} (hx : Fine M x) (hy : Fine M y) (h : x.same y = true) : x = y := by
  cases hx with
  | var h1 => cases hy <;> simp_all [Term.same]
  | con c => cases hy <;> simp_all [Term.same]
  | app h1 h2 =>
    cases hy with
    | var h3 => simp [Term.same] at h
    | con c => simp [Term.same] at h
    | app h3 h4 =>
      simp only [Term.same, beq_iff_eq] at h
      subst h
      rw [← h1, ← h3]

theorem same_refl {M : Mem} {x : Term} (hx : Fine M x) : x.same x = true := by
  cases hx <;> simp [Term.same]

theorem same_var {n : Nat} {t : Term} (h : (Term.var n).same t = true) : t = .var n := by
  cases t <;> simp_all [Term.same]

theorem eqPrim_iff (M : Mem) (c d : Const) : (c = d ∨ eqPrim M c d = true) ↔ c.val M = d.val M := by
  cases c <;> cases d <;> simp [eqPrim, Const.val] <;> (intro h; rw [h])

end WG.Reason
