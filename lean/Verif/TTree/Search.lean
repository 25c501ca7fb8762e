import Verif.TTree.Retrace
import Verif.TTree.Spec
/-!
# Searching for a bounding node
-/
namespace WG.TTree
variable {κ : Type}
open T

namespace Ord
variable {E : Env κ} {P : κ → Prop} (O : Ord E P)
include O
theorem refl {a : κ} (h : P a) : E.le a a := by
  have := O.swap h h
  unfold Env.le
  intro e; rw [e] at this; simp [Ordering.swap] at this
theorem gt_iff {a b : κ} (ha : P a) (hb : P b) : E.cmp a b = .gt ↔ E.cmp b a = .lt := by
  rw [O.swap ha hb]; cases E.cmp a b <;> simp [Ordering.swap]
theorem lt_iff {a b : κ} (ha : P a) (hb : P b) : E.cmp a b = .lt ↔ ¬ E.le b a := by
  unfold Env.le; rw [O.swap ha hb]; cases E.cmp a b <;> simp [Ordering.swap]
theorem ge_iff {a b : κ} (ha : P a) (hb : P b) : E.cmp a b ≠ .lt ↔ E.le b a := by
  rw [ne_eq, O.lt_iff ha hb, not_not]
theorem total {a b : κ} (ha : P a) (hb : P b) : E.le a b ∨ E.le b a := by
  unfold Env.le; rw [O.swap ha hb]; cases E.cmp a b <;> simp [Ordering.swap]
theorem le_of_lt {a b : κ} (h : E.cmp a b = .lt) : E.le a b := by unfold Env.le; rw [h]; simp
theorem lt_le {a b c : κ} (ha : P a) (hb : P b) (hc : P c) (h1 : E.cmp a b = .lt) (h2 : E.le b c) : E.cmp a c = .lt := by
  rw [O.lt_iff ha hb] at h1; rw [O.lt_iff ha hc]
  exact fun h => h1 (O.trans hb hc ha h2 h)
theorem le_lt {a b c : κ} (ha : P a) (hb : P b) (hc : P c) (h1 : E.le a b) (h2 : E.cmp b c = .lt) : E.cmp a c = .lt := by
  rw [O.lt_iff hb hc] at h2; rw [O.lt_iff ha hc]
  exact fun h => h2 (O.trans hc ha hb h h1)
theorem gt_le {a b c : κ} (ha : P a) (hb : P b) (hc : P c) (h1 : E.cmp a b = .gt) (h2 : E.le c b) : E.cmp a c = .gt := by
  rw [O.gt_iff ha hb] at h1; rw [O.gt_iff ha hc]
  exact O.le_lt hc hb ha h2 h1
end Ord

/-- The rows in index order are sorted, and their values are admissible. -/
structure Sorted (E : Env κ) (P : κ → Prop) (l : List Nat) : Prop where
  pw : l.Pairwise (fun a b => E.le (E.key a) (E.key b))
  P : ∀ x ∈ l, P (E.key x)

/-- The order of the nodes. -/
structure NSorted (E : Env κ) (P : κ → Prop) (l : List (D κ)) : Prop where
  pw : l.Pairwise (fun a b => E.le a.mx b.mn)
  le : ∀ d ∈ l, E.le d.mn d.mx
  pmn : ∀ d ∈ l, P d.mn
  pmx : ∀ d ∈ l, P d.mx

theorem head_mem {l : List Nat} (h : l ≠ []) : l.headD 0 ∈ l := by
  cases l with
  | nil => exact absurd rfl h
  | cons a l => simp

theorem last_mem {l : List Nat} (h : l ≠ []) : l.getLastD 0 ∈ l := by
  rw [List.getLastD_eq_getLast?, List.getLast?_eq_some_getLast h]
  exact List.getLast_mem h

theorem nsorted {E : Env κ} {P : κ → Prop} (O : Ord E P) {l : List (D κ)} (hs : Sorted E P (elemsC l)) (hok : ∀ d ∈ l, NOk E d) : NSorted E P l := by
  have hmem : ∀ {d}, d ∈ l → ∀ {x}, x ∈ d.vals → x ∈ elemsC l := fun hd _ hx => List.mem_flatMap.2 ⟨_, hd, hx⟩
  have hpw := hs.pw
  unfold elemsC at hpw
  rw [List.pairwise_flatMap] at hpw
  refine ⟨?_, ?_, ?_, ?_⟩
  · refine hpw.2.imp_of_mem ?_
    intro a b ha hb h
    rw [(hok a ha).mx, (hok b hb).mn]
    exact h _ (last_mem (hok a ha).ne) _ (head_mem (hok b hb).ne)
  · intro d hd
    rw [(hok d hd).mx, (hok d hd).mn]
    have h1 := hpw.1 d hd
    have hne := (hok d hd).ne
    have hp := fun x hx => hs.P x (hmem hd hx)
    cases hv : d.vals with
    | nil => exact absurd hv hne
    | cons a m =>
      rw [hv] at h1 hp
      rw [List.pairwise_cons] at h1
      rw [List.headD_cons]
      cases m with
      | nil => exact O.refl (hp a (by simp))
      | cons b m =>
        rw [List.getLastD_cons]
        exact h1.1 _ (by rw [show (b :: m).getLastD a = (b :: m).getLastD 0 from by rw [List.getLastD_cons, List.getLastD_cons]]; exact last_mem (by simp))
  · intro d hd
    rw [(hok d hd).mn]; exact hs.P _ (hmem hd (head_mem (hok d hd).ne))
  · intro d hd
    rw [(hok d hd).mx]; exact hs.P _ (hmem hd (last_mem (hok d hd).ne))

theorem NSorted.mx_le {E : Env κ} {P : κ → Prop} (O : Ord E P) {l m : List (D κ)} (h : NSorted E P (l ++ m)) {a b : D κ} (ha : a ∈ l) (hb : b ∈ m) : E.le a.mx b.mx := by
  have h1 := (List.pairwise_append.1 h.pw).2.2 a ha b hb
  have ha' : a ∈ l ++ m := by simp [ha]
  have hb' : b ∈ l ++ m := by simp [hb]
  exact O.trans (h.pmx a ha') (h.pmn b hb') (h.pmx b hb') h1 (h.le b hb')

theorem NSorted.mn_le {E : Env κ} {P : κ → Prop} (O : Ord E P) {l m : List (D κ)} (h : NSorted E P (l ++ m)) {a b : D κ} (ha : a ∈ l) (hb : b ∈ m) : E.le a.mn b.mn := by
  have h1 := (List.pairwise_append.1 h.pw).2.2 a ha b hb
  have ha' : a ∈ l ++ m := by simp [ha]
  have hb' : b ∈ l ++ m := by simp [hb]
  exact O.trans (h.pmn a ha') (h.pmx a ha') (h.pmn b hb') (h.le a ha') h1

def headId (l : List (D κ)) : Nat := (l.map D.id).headD 0
def lastId (l : List (D κ)) : Nat := (l.map D.id).getLastD 0

/-- Result of `searchLeft`. -/
def LeftRes (E : Env κ) (s : St κ) (key : κ) (l : List (D κ)) (x : Nat × Bound) : Prop :=
  ∃ pre d post, l = pre ++ d :: post ∧ x.1 = d.id ∧ (∀ e ∈ pre, E.cmp key e.mx = .gt) ∧
    match x.2 with
    | .really => E.cmp key d.mx ≠ .gt ∧ E.cmp key d.mn ≠ .lt
    | .deadLeft => E.cmp key d.mn = .lt ∧ (s.h d.id).left = 0
    | .deadRight => E.cmp key d.mx = .gt ∧ (∀ e ∈ post.head?, E.cmp key e.mn = .lt) ∧ (s.h d.id).right = 0

/-- Result of `searchRight`. -/
def RightRes (E : Env κ) (s : St κ) (key : κ) (l : List (D κ)) (x : Nat × Bound) : Prop :=
  ∃ pre d post, l = pre ++ d :: post ∧ x.1 = d.id ∧ (∀ e ∈ post, E.cmp key e.mn = .lt) ∧
    match x.2 with
    | .really => E.cmp key d.mn ≠ .lt ∧ E.cmp key d.mx ≠ .gt
    | .deadRight => E.cmp key d.mx = .gt ∧ (s.h d.id).right = 0
    | .deadLeft => E.cmp key d.mn = .lt ∧ (∀ e ∈ pre.getLast?, E.cmp key e.mx = .gt) ∧ (s.h d.id).left = 0

theorem rid_zero {s : St κ} {c : Ctx κ} {t : T κ} (h : Rep s (plug c t)) : t.rid = 0 ↔ t = .nil := by
  constructor
  · intro e
    by_contra hne
    exact rid_ne_zero h.nodup3.2.1 hne e
  · rintro rfl; rfl

theorem searchLeft_res {E : Env κ} {P : κ → Prop} (O : Ord E P) {s : St κ} {key : κ} (hkey : P key) : ∀ (t : T κ) (c : Ctx κ) (k : Nat), t.height ≤ k → t ≠ .nil →
    Rep s (plug c t) → NSorted E P (plug c t).nodes → (∀ e ∈ preN c, E.cmp key e.mx = .gt) → (∀ e ∈ (postN c).head?, E.cmp key e.mx ≠ .gt) →
    LeftRes E s key (plug c t).nodes (searchLeft E s key k t.rid (headId (postN c))) := by
  intro t
  induction t with
  | nil => intro c k _ h; exact absurd rfl h
  | node d l r ihl ihr =>
    intro c k hk _ hr hns hpre hpost
    cases k with
    | zero => simp at hk
    | succ k =>
      have i0 := hr.focus.2.1
      have hnl : l.rid = 0 ↔ l = .nil := rid_zero (c := .L d r :: c) hr
      have hnr : r.rid = 0 ↔ r = .nil := rid_zero (c := .R d l :: c) hr
      rw [rid_node, searchLeft]
      simp only [i0.mx, i0.mn, i0.left, i0.right]
      have hdm : d ∈ (plug c (T.node d l r)).nodes := by simp [nodes_plug]
      have hpreR : E.cmp key d.mx = .gt → ∀ e ∈ preN c ++ l.nodes, E.cmp key e.mx = .gt := by
        intro g e he
        rcases List.mem_append.1 he with he | he
        · exact hpre e he
        · have hns' := hns
          rw [show (plug c (T.node d l r)).nodes = (preN c ++ l.nodes) ++ (d :: r.nodes ++ postN c) by simp [nodes_plug]] at hns'
          exact O.gt_le hkey (hns'.pmx d (by simp)) (hns'.pmx e (by simp [he])) g (hns'.mx_le O (by simp [he]) (by simp))
      split_ifs with g1 g2 g3 g4 g5
      · -- to the right
        have hne : r ≠ .nil := fun e => g2 (hnr.2 e)
        refine ihr (.R d l :: c) k (by simp at hk; omega) hne hr hns ?_ hpost
        simp only [preN]
        intro e he
        rcases List.mem_append.1 he with he | he
        · exact hpre e he
        · rcases List.mem_append.1 he with he | he
          · exact hpreR g1 e (by simp [he])
          · rw [List.mem_singleton] at he; subst he; exact g1
      · -- the remembered node
        have hrn := hnr.1 (not_not.1 g2)
        subst hrn
        cases hp : postN c with
        | nil => rw [hp] at g3; exact absurd rfl g3.1
        | cons b q =>
          have hb : b ∈ (plug c (T.node d l .nil)).nodes := by rw [nodes_plug, hp]; simp
          obtain ⟨_, _, _, ib⟩ := hr.get hb
          have hid : headId (b :: q) = b.id := rfl
          rw [hp] at g3 hpost
          rw [hid, ib.mn] at g3
          refine ⟨preN c ++ l.nodes ++ [d], b, q, by simp [nodes_plug, hp], by simp [hid], ?_, hpost b (by simp), g3.2⟩
          intro e he
          rcases List.mem_append.1 he with he | he
          · exact hpreR g1 e he
          · rw [List.mem_singleton] at he; subst he; exact g1
      · have hrn := hnr.1 (not_not.1 g2)
        subst hrn
        refine ⟨preN c ++ l.nodes, d, postN c, by simp [nodes_plug], rfl, hpreR g1, g1, ?_, i0.right⟩
        intro b hb
        cases hp : postN c with
        | nil => rw [hp] at hb; simp at hb
        | cons b' q =>
          rw [hp] at hb; simp only [List.head?_cons, Option.mem_def, Option.some.injEq] at hb; subst hb
          have hb : b' ∈ (plug c (T.node d l .nil)).nodes := by rw [nodes_plug, hp]; simp
          obtain ⟨_, _, _, ib⟩ := hr.get hb
          have hid : headId (b' :: q) = b'.id := rfl
          rw [hp, hid, ib.mn] at g3
          by_contra hc
          refine g3 ⟨?_, hc⟩
          intro e
          exact hr.pos (List.mem_map.2 ⟨b', hb, e⟩)
      · -- to the left
        have hne : l ≠ .nil := fun e => g4 (hnl.2 e)
        refine ihl (.L d r :: c) k (by simp at hk; omega) hne hr hns hpre ?_
        intro b hb
        simp only [postN, List.cons_append, List.head?_cons, Option.mem_def, Option.some.injEq] at hb
        subst hb; exact g1
      · have hln := hnl.1 (not_not.1 g4)
        subst hln
        exact ⟨preN c, d, r.nodes ++ postN c, by simp [nodes_plug], rfl, hpre, g1, g5⟩
      · have hln := hnl.1 (not_not.1 g4)
        subst hln
        exact ⟨preN c, d, r.nodes ++ postN c, by simp [nodes_plug], rfl, hpre, not_not.1 g5, i0.left⟩

theorem lastId_concat (l : List (D κ)) (b : D κ) : lastId (l ++ [b]) = b.id := by
  unfold lastId; rw [List.map_append, getLastD_append (by simp)]; rfl

theorem searchRight_res {E : Env κ} {P : κ → Prop} (O : Ord E P) {s : St κ} {key : κ} (hkey : P key) : ∀ (t : T κ) (c : Ctx κ) (k : Nat), t.height ≤ k → t ≠ .nil →
    Rep s (plug c t) → NSorted E P (plug c t).nodes → (∀ e ∈ postN c, E.cmp key e.mn = .lt) → (∀ e ∈ (preN c).getLast?, E.cmp key e.mn ≠ .lt) →
    RightRes E s key (plug c t).nodes (searchRight E s key k t.rid (lastId (preN c))) := by
  intro t
  induction t with
  | nil => intro c k _ h; exact absurd rfl h
  | node d l r ihl ihr =>
    intro c k hk _ hr hns hpost hpre
    cases k with
    | zero => simp at hk
    | succ k =>
      have i0 := hr.focus.2.1
      have hnl : l.rid = 0 ↔ l = .nil := rid_zero (c := .L d r :: c) hr
      have hnr : r.rid = 0 ↔ r = .nil := rid_zero (c := .R d l :: c) hr
      rw [rid_node, searchRight]
      simp only [i0.mx, i0.mn, i0.left, i0.right]
      have hdm : d ∈ (plug c (T.node d l r)).nodes := by simp [nodes_plug]
      have hpostL : E.cmp key d.mn = .lt → ∀ e ∈ r.nodes ++ postN c, E.cmp key e.mn = .lt := by
        intro g e he
        rcases List.mem_append.1 he with he | he
        · have hns' := hns
          rw [show (plug c (T.node d l r)).nodes = (preN c ++ l.nodes ++ [d]) ++ (r.nodes ++ postN c) by simp [nodes_plug]] at hns'
          exact O.lt_le hkey (hns'.pmn d (by simp)) (hns'.pmn e (by simp [he])) g (hns'.mn_le O (by simp) (by simp [he]))
        · exact hpost e he
      split_ifs with g1 g2 g3 g4 g5
      · -- to the left
        have hne : l ≠ .nil := fun e => g2 (hnl.2 e)
        refine ihl (.L d r :: c) k (by simp at hk; omega) hne hr hns ?_ hpre
        simp only [postN]
        intro e he
        rcases List.mem_append.1 he with he | he
        · rcases List.mem_cons.1 he with rfl | he
          · exact g1
          · exact hpostL g1 e (by simp [he])
        · exact hpost e he
      · -- the remembered node
        have hln := hnl.1 (not_not.1 g2)
        subst hln
        rcases List.eq_nil_or_concat (preN c) with hp | ⟨q, b, hp⟩
        · rw [hp] at g3; exact absurd rfl g3.1
        · rw [List.concat_eq_append] at hp
          have hb : b ∈ (plug c (T.node d .nil r)).nodes := by rw [nodes_plug, hp]; simp
          obtain ⟨_, _, _, ib⟩ := hr.get hb
          have hid : lastId (q ++ [b]) = b.id := lastId_concat q b
          rw [hp] at g3 hpre
          rw [hid, ib.mx] at g3
          refine ⟨q, b, d :: r.nodes ++ postN c, by simp [nodes_plug, hp], by simp [hp, hid], ?_, hpre b (by simp), g3.2⟩
          intro e he
          rcases List.mem_cons.1 he with rfl | he
          · exact g1
          · exact hpostL g1 e he
      · have hln := hnl.1 (not_not.1 g2)
        subst hln
        refine ⟨preN c, d, r.nodes ++ postN c, by simp [nodes_plug], rfl, hpostL g1, g1, ?_, i0.left⟩
        intro b hb
        rcases List.eq_nil_or_concat (preN c) with hp | ⟨q, b', hp⟩
        · rw [hp] at hb; simp at hb
        · rw [List.concat_eq_append] at hp
          rw [hp] at hb; simp only [List.getLast?_append, List.getLast?_singleton, Option.some_or, Option.mem_def, Option.some.injEq] at hb; subst hb
          have hb : b' ∈ (plug c (T.node d .nil r)).nodes := by rw [nodes_plug, hp]; simp
          obtain ⟨_, _, _, ib⟩ := hr.get hb
          have hid : lastId (q ++ [b']) = b'.id := lastId_concat q b'
          rw [hp, hid, ib.mx] at g3
          by_contra hc
          refine g3 ⟨?_, hc⟩
          intro e
          exact hr.pos (List.mem_map.2 ⟨b', hb, e⟩)
      · -- to the right
        have hne : r ≠ .nil := fun e => g4 (hnr.2 e)
        have := ihr (.R d l :: c) k (by simp at hk; omega) hne hr hns hpost (by
          intro b hb
          have : b = d := by
            simp only [preN, ← List.append_assoc] at hb
            simpa using hb.symm
          subst this; exact g1)
        rwa [show lastId (preN (.R d l :: c)) = d.id from by simp only [preN, ← List.append_assoc]; exact lastId_concat _ d] at this
      · have hrn := hnr.1 (not_not.1 g4)
        subst hrn
        exact ⟨preN c ++ l.nodes, d, postN c, by simp [nodes_plug], rfl, hpost, g1, g5⟩
      · have hrn := hnr.1 (not_not.1 g4)
        subst hrn
        exact ⟨preN c ++ l.nodes, d, postN c, by simp [nodes_plug], rfl, hpost, not_not.1 g5, i0.right⟩

end WG.TTree
