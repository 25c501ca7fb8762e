import Verif.TTree.Model
import Mathlib.Tactic.SplitIfs
import Mathlib.Tactic.Tauto
import Mathlib.Tactic.ByContra
/-!
# Trees and their representation by nodes

Proof device: a tree with the data of the nodes (`T`), trees with a hole (`Ctx`), and the relation `Rep` that nodes, root and chain of
a state represent a tree.
-/
namespace WG.TTree
variable {κ : Type}

structure D (κ : Type) where
  id : Nat
  lh : Nat
  rh : Nat
  mn : κ
  mx : κ
  vals : List Nat

inductive T (κ : Type) where
  | nil : T κ
  | node : D κ → T κ → T κ → T κ

namespace T
def rid : T κ → Nat
  | nil => 0
  | node d _ _ => d.id

/-- Nodes from left to right. -/
def nodes : T κ → List (D κ)
  | nil => []
  | node d l r => nodes l ++ d :: nodes r

def ids (t : T κ) : List Nat := t.nodes.map D.id

def height : T κ → Nat
  | nil => 0
  | node _ l r => max (height l) (height r) + 1

/-- Heights recorded in the nodes are the heights of the subtrees, and differ by at most one. -/
def AVL : T κ → Prop
  | nil => True
  | node d l r => d.lh = height l ∧ d.rh = height r ∧ height l ≤ height r + 1 ∧ height r ≤ height l + 1 ∧ AVL l ∧ AVL r

@[simp] theorem nodes_nil : (nil : T κ).nodes = [] := rfl
@[simp] theorem nodes_node (d : D κ) (l r : T κ) : (node d l r).nodes = l.nodes ++ d :: r.nodes := rfl
@[simp] theorem ids_nil : (nil : T κ).ids = [] := rfl
@[simp] theorem ids_node (d : D κ) (l r : T κ) : (node d l r).ids = l.ids ++ d.id :: r.ids := by simp [ids]
@[simp] theorem rid_nil : (nil : T κ).rid = 0 := rfl
@[simp] theorem rid_node (d : D κ) (l r : T κ) : (node d l r).rid = d.id := rfl
@[simp] theorem height_nil : (nil : T κ).height = 0 := rfl
@[simp] theorem height_node (d : D κ) (l r : T κ) : (node d l r).height = max l.height r.height + 1 := rfl

theorem rid_mem {t : T κ} (h : t ≠ nil) : t.rid ∈ t.ids := by
  cases t with
  | nil => exact absurd rfl h
  | node d l r => simp

theorem height_eq_zero {t : T κ} (h : t.height = 0) : t = nil := by
  cases t with
  | nil => rfl
  | node d l r => simp at h
end T
open T

inductive Frame (κ : Type) where
  /-- the hole is the left child -/
  | L : D κ → T κ → Frame κ
  /-- the hole is the right child -/
  | R : D κ → T κ → Frame κ

/-- Tree with a hole; innermost frame first. -/
abbrev Ctx (κ : Type) := List (Frame κ)

def Frame.d : Frame κ → D κ
  | .L d _ => d
  | .R d _ => d

def Frame.fill : Frame κ → T κ → T κ
  | .L d r, t => .node d t r
  | .R d l, t => .node d l t

def plug : Ctx κ → T κ → T κ
  | [], t => t
  | f :: c, t => plug c (f.fill t)

def pid : Ctx κ → Nat
  | [] => 0
  | f :: _ => f.d.id

def preN : Ctx κ → List (D κ)
  | [] => []
  | .L _ _ :: c => preN c
  | .R d l :: c => preN c ++ (l.nodes ++ [d])

def postN : Ctx κ → List (D κ)
  | [] => []
  | .L d r :: c => d :: r.nodes ++ postN c
  | .R _ _ :: c => postN c

theorem nodes_plug : ∀ (c : Ctx κ) (t : T κ), (plug c t).nodes = preN c ++ t.nodes ++ postN c := by
  intro c
  induction c with
  | nil => intro t; simp [plug, preN, postN]
  | cons f c ih =>
    intro t
    rw [plug, ih]
    cases f <;> simp [Frame.fill, preN, postN]

theorem ids_plug (c : Ctx κ) (t : T κ) : (plug c t).ids = (preN c).map D.id ++ t.ids ++ (postN c).map D.id := by
  simp [ids, nodes_plug]

theorem plug_append (c e : Ctx κ) (t : T κ) : plug (c ++ e) t = plug e (plug c t) := by
  induction c generalizing t with
  | nil => rfl
  | cons f c ih => simp [plug, ih]

/-- Every node is the root of the tree in some hole. -/
theorem exists_zipper : ∀ (t : T κ) {d : D κ}, d ∈ t.nodes → ∃ c l r, t = plug c (.node d l r) := by
  intro t
  induction t with
  | nil => intro d h; simp at h
  | node d0 l r ihl ihr =>
    intro d h
    simp only [nodes_node, List.mem_append, List.mem_cons] at h
    rcases h with h | rfl | h
    · obtain ⟨c, l', r', e⟩ := ihl h
      exact ⟨c ++ [.L d0 r], l', r', by rw [plug_append, ← e]; rfl⟩
    · exact ⟨[], l, r, rfl⟩
    · obtain ⟨c, l', r', e⟩ := ihr h
      exact ⟨c ++ [.R d0 l], l', r', by rw [plug_append, ← e]; rfl⟩

/-! ## Representation -/

/-- Node record `n` holds the data `d` and the links given. -/
structure Nd.Is (n : Nd κ) (p lid rid : Nat) (d : D κ) : Prop where
  parent : n.parent = p
  left : n.left = lid
  right : n.right = rid
  lh : n.lh = d.lh
  rh : n.rh = d.rh
  mn : n.mn = d.mn
  mx : n.mx = d.mx
  vals : n.vals = d.vals

def RepT (h : Nat → Nd κ) (p : Nat) : T κ → Prop
  | .nil => True
  | .node d l r => (h d.id).Is p l.rid r.rid d ∧ RepT h d.id l ∧ RepT h d.id r

/-- The frames, with a subtree whose root is `c` in the hole; `root` is the root of all. -/
def RepC (h : Nat → Nd κ) (root : Nat) : Ctx κ → Nat → Prop
  | [], c => root = c
  | .L d r :: x, c => (h d.id).Is (pid x) c r.rid d ∧ RepT h d.id r ∧ RepC h root x d.id
  | .R d l :: x, c => (h d.id).Is (pid x) l.rid c d ∧ RepT h d.id l ∧ RepC h root x d.id

theorem repT_plug {h : Nat → Nd κ} {root : Nat} : ∀ {c : Ctx κ} {t : T κ},
    (RepT h 0 (plug c t) ∧ root = (plug c t).rid) ↔ (RepC h root c t.rid ∧ RepT h (pid c) t) := by
  intro c
  induction c with
  | nil => intro t; exact And.comm
  | cons f c ih =>
    intro t
    rw [plug, ih]
    cases f <;> simp only [Frame.fill, RepT, RepC, rid_node, pid, Frame.d] <;> tauto

/-- Same fields, apart from the chain. -/
def Nd.Same (m n : Nd κ) : Prop :=
  m.parent = n.parent ∧ m.left = n.left ∧ m.right = n.right ∧ m.lh = n.lh ∧ m.rh = n.rh ∧ m.mn = n.mn ∧ m.mx = n.mx ∧ m.vals = n.vals

theorem Nd.Same.refl (n : Nd κ) : n.Same n := ⟨rfl, rfl, rfl, rfl, rfl, rfl, rfl, rfl⟩

theorem Nd.Same.is {m n : Nd κ} (h : m.Same n) {p l r : Nat} {d : D κ} (hi : n.Is p l r d) : m.Is p l r d := by
  obtain ⟨h1, h2, h3, h4, h5, h6, h7, h8⟩ := h
  exact ⟨h1.trans hi.1, h2.trans hi.2, h3.trans hi.3, h4.trans hi.4, h5.trans hi.5, h6.trans hi.6, h7.trans hi.7, h8.trans hi.8⟩

theorem RepT.congr {h h' : Nat → Nd κ} : ∀ {t : T κ} {p : Nat}, RepT h p t → (∀ i ∈ t.ids, (h' i).Same (h i)) → RepT h' p t := by
  intro t
  induction t with
  | nil => intros; trivial
  | node d l r ihl ihr =>
    intro p hr he
    exact ⟨(he d.id (by simp)).is hr.1, ihl hr.2.1 (fun i hi => he i (by simp [hi])), ihr hr.2.2 (fun i hi => he i (by simp [hi]))⟩

theorem RepC.congr {h h' : Nat → Nd κ} {root : Nat} : ∀ {c : Ctx κ} {x : Nat}, RepC h root c x →
    (∀ d ∈ preN c, (h' d.id).Same (h d.id)) → (∀ d ∈ postN c, (h' d.id).Same (h d.id)) → RepC h' root c x := by
  intro c
  induction c with
  | nil => intro x h _ _; exact h
  | cons f c ih =>
    intro x hr h1 h2
    cases f with
    | L d r =>
      simp only [preN, postN, List.cons_append, List.mem_cons, List.mem_append] at h1 h2
      exact ⟨(h2 d (by simp)).is hr.1, hr.2.1.congr (fun i hi => by
        obtain ⟨e, he, rfl⟩ := List.mem_map.1 hi
        exact h2 e (by simp [he])), ih hr.2.2 h1 (fun e he => h2 e (by simp [he]))⟩
    | R d l =>
      simp only [preN, postN, List.mem_cons, List.mem_append] at h1 h2
      exact ⟨(h1 d (by simp)).is hr.1, hr.2.1.congr (fun i hi => by
        obtain ⟨e, he, rfl⟩ := List.mem_map.1 hi
        exact h1 e (by simp [he])), ih hr.2.2 (fun e he => h1 e (by simp [he])) h2⟩

/-- Only the parent of the root of a subtree changes. -/
theorem RepT.reparent {h h' : Nat → Nd κ} {t : T κ} {p p' : Nat} (hr : RepT h p t) (hn : t.ids.Nodup)
    (h1 : ∀ i ∈ t.ids, i ≠ t.rid → (h' i).Same (h i)) (h2 : t ≠ .nil → (h' t.rid).Same { h t.rid with parent := p' }) : RepT h' p' t := by
  cases t with
  | nil => trivial
  | node d l r =>
    have h2 := h2 (by simp)
    simp only [rid_node] at h1 h2
    simp only [ids_node, List.nodup_append, List.nodup_cons] at hn
    obtain ⟨n1, ⟨n2, n3⟩, n4⟩ := hn
    refine ⟨h2.is ⟨rfl, hr.1.2, hr.1.3, hr.1.4, hr.1.5, hr.1.6, hr.1.7, hr.1.8⟩, hr.2.1.congr ?_, hr.2.2.congr ?_⟩
    · intro i hi
      exact h1 i (by simp [hi]) (n4 i hi d.id (by simp))
    · intro i hi
      exact h1 i (by simp [hi]) (fun e => n2 (e ▸ hi))

/-- Doubly linked chain of the nodes in `l`, between `p` before and `n` after. -/
def Dll (h : Nat → Nd κ) : Nat → List Nat → Nat → Prop
  | _, [], _ => True
  | p, i :: l, n => (h i).pred = p ∧ (h i).succ = l.headD n ∧ Dll h i l n

theorem Dll.congr {h h' : Nat → Nd κ} : ∀ {l : List Nat} {p n : Nat}, Dll h p l n →
    (∀ i ∈ l, (h' i).succ = (h i).succ ∧ (h' i).pred = (h i).pred) → Dll h' p l n := by
  intro l
  induction l with
  | nil => intros; trivial
  | cons i l ih =>
    intro p n hd he
    have hi := he i (by simp)
    exact ⟨hi.2.trans hd.1, hi.1.trans hd.2.1, ih hd.2.2 (fun j hj => he j (by simp [hj]))⟩

theorem Dll.append {h : Nat → Nd κ} : ∀ {l m : List Nat} {p n : Nat}, Dll h p (l ++ m) n ↔ Dll h p l (m.headD n) ∧ Dll h (l.getLastD p) m n := by
  intro l
  induction l with
  | nil => intro m p n; simp [Dll]
  | cons i l ih =>
    intro m p n
    simp only [List.cons_append, Dll, ih]
    have e1 : (l ++ m).headD n = l.headD (m.headD n) := by cases l <;> simp
    have e2 : (i :: l).getLastD p = l.getLastD i := List.getLastD_cons
    rw [e1, e2]
    tauto

/-- State `s` represents tree `t`. -/
structure Rep (s : St κ) (t : T κ) : Prop where
  tree : RepT s.h 0 t
  root : s.root = t.rid
  nodup : t.ids.Nodup
  pos : 0 ∉ t.ids
  chain : Dll s.h 0 t.ids 0
  minN : s.minN = t.ids.headD 0
  maxN : s.maxN = t.ids.getLastD 0

theorem St.mod_self (s : St κ) (i : Nat) (f : Nd κ → Nd κ) : (s.mod i f).h i = f (s.h i) := by simp [St.mod]
theorem St.mod_ne (s : St κ) {i j : Nat} (f : Nd κ → Nd κ) (h : j ≠ i) : (s.mod i f).h j = s.h j := by simp [St.mod, h]
@[simp] theorem St.mod_root (s : St κ) (i : Nat) (f : Nd κ → Nd κ) : (s.mod i f).root = s.root := rfl
@[simp] theorem St.mod_minN (s : St κ) (i : Nat) (f : Nd κ → Nd κ) : (s.mod i f).minN = s.minN := rfl
@[simp] theorem St.mod_maxN (s : St κ) (i : Nat) (f : Nd κ → Nd κ) : (s.mod i f).maxN = s.maxN := rfl

/-- A node in focus: its fields. -/
theorem Rep.focus {s : St κ} {c : Ctx κ} {t : T κ} (h : Rep s (plug c t)) : RepC s.h s.root c t.rid ∧ RepT s.h (pid c) t :=
  repT_plug.1 ⟨h.tree, h.root⟩

theorem Rep.get {s : St κ} {t : T κ} (h : Rep s t) {d : D κ} (hd : d ∈ t.nodes) : ∃ p l r, (s.h d.id).Is p l r d := by
  obtain ⟨c, l, r, rfl⟩ := exists_zipper t hd
  exact ⟨_, _, _, h.focus.2.1⟩

end WG.TTree
