import Verif.TTree.RotateCases
/-!
# Balance: rotation on balanced subtrees, and the loops towards the root
-/
namespace WG.TTree
variable {κ : Type}
open T

/-- A node of the index with content: between one and eight rows, minimum and maximum in sync with the slots. -/
structure NOk (E : Env κ) (d : D κ) : Prop where
  ne : d.vals ≠ []
  cap : d.vals.length ≤ CAP
  mn : d.mn = E.key (d.vals.headD 0)
  mx : d.mx = E.key (d.vals.getLastD 0)

theorem getLastD_append {l m : List Nat} (h : m ≠ []) {x : Nat} : (l ++ m).getLastD x = m.getLastD x := by
  rw [List.getLastD_eq_getLast?, List.getLastD_eq_getLast?, List.getLast?_append]
  cases hm : m.getLast? with
  | none => simp at hm; exact absurd hm h
  | some y => simp

theorem headD_append {l m : List Nat} (h : l ≠ []) {x : Nat} : (l ++ m).headD x = l.headD x := by
  cases l with
  | nil => exact absurd rfl h
  | cons a l => rfl

/-- All rows, in order. -/
def elems (t : T κ) : List Nat := t.nodes.flatMap D.vals

@[simp] theorem elems_nil : elems (.nil : T κ) = [] := rfl
@[simp] theorem elems_node (d : D κ) (l r : T κ) : elems (.node d l r) = elems l ++ (d.vals ++ elems r) := by simp [elems]

def elemsC (c : List (D κ)) : List Nat := c.flatMap D.vals

theorem elems_plug (c : Ctx κ) (t : T κ) : elems (plug c t) = elemsC (preN c) ++ elems t ++ elemsC (postN c) := by
  simp [elems, elemsC, nodes_plug]

theorem NOk.congr {E : Env κ} {d e : D κ} (h : NOk E d) (h1 : e.vals = d.vals) (h2 : e.mn = d.mn) (h3 : e.mx = d.mx) : NOk E e :=
  ⟨h1 ▸ h.ne, h1 ▸ h.cap, by rw [h1, h2]; exact h.mn, by rw [h1, h3]; exact h.mx⟩

/-- What a rotation of the subtree `A` gives: `t'`. -/
structure Rot (E : Env κ) (A t' : T κ) : Prop where
  avl : AVL t'
  ids : t'.ids = A.ids
  elems : elems t' = elems A
  nok : ∀ d ∈ t'.nodes, NOk E d
  ne : t' ≠ .nil

theorem gpFix_height {s s' : St κ} {c : Ctx κ} {A t' : T κ} {p' : Nat} (hr : Rep s (plug c A)) (hA : A ≠ .nil) (ht : t' ≠ .nil)
    (ho : Outside s s' A.ids) (hT : RepT s'.h p' t') (hi : t'.ids = A.ids) (ha : AVL t') :
    Rep (gpFix s' (pid c) A.rid t'.rid) (plug (setHc c t'.height) t') := by
  have := gpFix_rep hr hA ht ho hT hi
  cases t' with
  | nil => exact absurd rfl ht
  | node d l r =>
    have h1 : (s'.h d.id).lh = l.height := hT.1.lh.trans ha.1
    have h2 : (s'.h d.id).rh = r.height := hT.1.rh.trans ha.2.1
    simp only [rid_node, h1, h2] at this
    exact this

/-- The heavy child leans to a side. -/
def Lean (t : T κ) : Prop := ∃ d l r, t = .node d l r ∧ l.height ≠ r.height

theorem rotate_left {E : Env κ} {s : St κ} {c : Ctx κ} {a : D κ} {l r : T κ} (hr : Rep s (plug c (.node a l r)))
    (hl : AVL l) (hrr : AVL r) (h1 : a.lh = l.height) (h2 : a.rh = r.height) (hh : l.height = r.height + 2)
    (hok : ∀ d ∈ (T.node a l r).nodes, NOk E d) :
    ∃ t', Rep (rotate E s a.id (overweight s a.id)) (plug (setHc c t'.height) t') ∧ Rot E (.node a l r) t' ∧
      ((rotate E s a.id (overweight s a.id)).h a.id).parent = t'.rid ∧ l.height ≤ t'.height ∧ t'.height ≤ l.height + 1 ∧
      (Lean l → t'.height = l.height) := by
  obtain ⟨rC, rA⟩ := hr.focus
  have hnd := hr.nodup
  have hpos := hr.pos
  rw [ids_plug] at hnd hpos
  have hndA : (T.node a l r).ids.Nodup := by
    simp only [List.nodup_append] at hnd
    exact hnd.1.2.1
  have hposA : 0 ∉ (T.node a l r).ids := fun h => hpos (by simp only [List.mem_append]; exact .inl (.inr h))
  have hpar : (s.h a.id).parent = pid c := rA.1.parent
  cases l with
  | nil => simp at hh
  | node b dd ee =>
    obtain ⟨b1, b2, b3, b4, b5, b6⟩ := hl
    have hlh : (s.h a.id).lh > (s.h a.id).rh := by rw [rA.1.lh, rA.1.rh, h1, h2, hh]; omega
    have hleft : (s.h a.id).left = b.id := rA.1.left
    have ibl : (s.h b.id).lh = b.lh := rA.2.1.1.lh
    have ibr : (s.h b.id).rh = b.rh := rA.2.1.1.rh
    simp only [height_node] at hh h1
    by_cases hcase : b.lh ≥ b.rh
    · -- LL
      have how : overweight s a.id = .LL := by simp only [overweight, if_pos hlh, hleft, ibl, ibr, if_pos hcase]
      obtain ⟨q1, q2, q3⟩ := rotLL_local rA hndA hposA
      have havl : AVL (T.node { b with rh := max b.rh a.rh + 1 } dd (.node { a with lh := b.rh } ee r)) := by
        refine ⟨b1, ?_, ?_, ?_, b5, b2, h2, ?_, ?_, b6, hrr⟩ <;> (try simp only [height_node, b2, h2]) <;> omega
      have hids : (T.node { b with rh := max b.rh a.rh + 1 } dd (.node { a with lh := b.rh } ee r)).ids = (T.node a (.node b dd ee) r).ids := by simp
      have hrep := gpFix_height hr (by simp) (by simp) q2 q3 hids havl
      have e : rotate E s a.id (overweight s a.id) = gpFix (rotLL s a.id).1 (pid c) a.id b.id := by simp only [how, rotate, q1, hpar]
      rw [e]
      refine ⟨_, hrep, ⟨havl, hids, by simp, ?_, by simp⟩, hrep.focus.2.2.2.1.parent, ?_, ?_, ?_⟩
      · intro d hd
        simp only [nodes_node, List.mem_append, List.mem_cons] at hd hok
        rcases hd with hd | rfl | hd | rfl | hd
        · exact hok d (by simp [hd])
        · exact (hok b (by simp)).congr rfl rfl rfl
        · exact hok d (by simp [hd])
        · exact (hok a (by simp)).congr rfl rfl rfl
        · exact hok d (by simp [hd])
      · simp only [height_node]; omega
      · simp only [height_node]; omega
      · rintro ⟨d, l, r, e, hne⟩
        injection e with e1 e2 e3
        subst e2 e3
        simp only [height_node]; omega
    · -- LR
      have how : overweight s a.id = .LR := by simp only [overweight, if_pos hlh, hleft, ibl, ibr, if_neg hcase]
      cases ee with
      | nil => simp at b2 hcase; omega
      | node e ff gg =>
        obtain ⟨e1, e2, e3, e4, e5, e6⟩ := b6
        obtain ⟨q1, q2, q3⟩ := rotLR_local (E := E) rA hndA hposA
        have hB : (lrB b e ff gg).id = b.id ∧ (lrB b e ff gg).lh = b.lh ∧ (lrB b e ff gg).rh = e.lh := by
          unfold lrB; split <;> exact ⟨rfl, rfl, rfl⟩
        have hE : (lrE E a b e ff gg).id = e.id ∧ (lrE E a b e ff gg).lh = max e.lh b.lh + 1 ∧ (lrE E a b e ff gg).rh = max a.rh e.rh + 1 := by
          unfold lrE; split <;> exact ⟨rfl, rfl, rfl⟩
        have hvals : (lrB b e ff gg).vals ++ (elems ff ++ (lrE E a b e ff gg).vals) = b.vals ++ (elems ff ++ e.vals) := by
          unfold lrB lrE
          by_cases sp : Special b e ff gg
          · rw [if_pos sp, if_pos sp]
            have hf : ff = .nil := by
              by_contra hne
              exact rid_ne_zero (t := ff) (fun h => hposA (by simp [h])) hne sp.2.2.1
            subst hf
            simp only [elems_nil, List.nil_append]
            rw [← List.append_assoc, List.take_append_drop]
          · rw [if_neg sp, if_neg sp]
        simp only [height_node] at b2 b3 b4 hh h1
        have havl : AVL (T.node (lrE E a b e ff gg) (.node (lrB b e ff gg) dd ff) (.node { a with lh := e.rh } gg r)) := by
          refine ⟨?_, ?_, ?_, ?_, ⟨?_, ?_, ?_, ?_, b5, e5⟩, e2, h2, ?_, ?_, e6, hrr⟩ <;>
            (try simp only [height_node, hB, hE, e1, e2, b1, h2]) <;> omega
        have hids : (T.node (lrE E a b e ff gg) (.node (lrB b e ff gg) dd ff) (.node { a with lh := e.rh } gg r)).ids = (T.node a (.node b dd (.node e ff gg)) r).ids := by
          simp [hB.1, hE.1]
        have hrep := gpFix_height hr (by simp) (by simp) q2 q3 hids havl
        have eq : rotate E s a.id (overweight s a.id) = gpFix (rotLR E s a.id).1 (pid c) a.id (lrE E a b e ff gg).id := by simp only [how, rotate, q1, hpar, hE.1]
        rw [eq]
        refine ⟨_, hrep, ⟨havl, hids, ?_, ?_, by simp⟩, hrep.focus.2.2.2.1.parent, ?_, ?_, ?_⟩
        · simp only [elems_node, List.append_assoc]
          have := congrArg (· ++ (elems gg ++ (a.vals ++ elems r))) hvals
          simp only [List.append_assoc] at this
          rw [this]
        · have okb := hok b (by simp)
          have oke := hok e (by simp)
          have okB : NOk E (lrB b e ff gg) := by
            unfold lrB
            by_cases sp : Special b e ff gg
            · rw [if_pos sp]
              have hlen := sp.2.2.2
              cases hv : b.vals with
              | nil => exact absurd hv okb.ne
              | cons x v =>
                refine ⟨by simp, by simp [CAP], ?_, ?_⟩
                · have := okb.mn; rw [hv] at this; simpa using this
                · have := okb.mn; rw [hv] at this; simpa using this
            · rw [if_neg sp]; exact okb.congr rfl rfl rfl
          have okE : NOk E (lrE E a b e ff gg) := by
            unfold lrE
            by_cases sp : Special b e ff gg
            · rw [if_pos sp]
              have hlen := sp.2.2.2
              have hlen1 := sp.1
              refine ⟨by simp [oke.ne], by simp [hlen, hlen1, CAP], rfl, ?_⟩
              simp only
              rw [getLastD_append oke.ne, oke.mx]
            · rw [if_neg sp]; exact oke.congr rfl rfl rfl
          intro d hd
          simp only [nodes_node, List.mem_append, List.mem_cons] at hd hok
          rcases hd with (hd | rfl | hd) | rfl | hd | rfl | hd
          · exact hok d (by simp [hd])
          · exact okB
          · exact hok d (by simp [hd])
          · exact okE
          · exact hok d (by simp [hd])
          · exact (hok a (by simp)).congr rfl rfl rfl
          · exact hok d (by simp [hd])
        · simp only [height_node]; omega
        · simp only [height_node]; omega
        · intro _
          simp only [height_node]; omega

theorem rotate_right {E : Env κ} {s : St κ} {c : Ctx κ} {a : D κ} {l r : T κ} (hr : Rep s (plug c (.node a l r)))
    (hll : AVL l) (hrr : AVL r) (h1 : a.lh = l.height) (h2 : a.rh = r.height) (hh : r.height = l.height + 2)
    (hok : ∀ d ∈ (T.node a l r).nodes, NOk E d) :
    ∃ t', Rep (rotate E s a.id (overweight s a.id)) (plug (setHc c t'.height) t') ∧ Rot E (.node a l r) t' ∧
      ((rotate E s a.id (overweight s a.id)).h a.id).parent = t'.rid ∧ r.height ≤ t'.height ∧ t'.height ≤ r.height + 1 ∧
      (Lean r → t'.height = r.height) := by
  obtain ⟨rC, rA⟩ := hr.focus
  have hnd := hr.nodup
  have hpos := hr.pos
  rw [ids_plug] at hnd hpos
  have hndA : (T.node a l r).ids.Nodup := by
    simp only [List.nodup_append] at hnd
    exact hnd.1.2.1
  have hposA : 0 ∉ (T.node a l r).ids := fun h => hpos (by simp only [List.mem_append]; exact .inl (.inr h))
  have hpar : (s.h a.id).parent = pid c := rA.1.parent
  cases r with
  | nil => simp at hh
  | node b ee dd =>
    obtain ⟨b1, b2, b3, b4, b5, b6⟩ := hrr
    have hlh : ¬ (s.h a.id).lh > (s.h a.id).rh := by rw [rA.1.lh, rA.1.rh, h1, h2, hh]; omega
    have hright : (s.h a.id).right = b.id := rA.1.right
    have ibl : (s.h b.id).lh = b.lh := rA.2.2.1.lh
    have ibr : (s.h b.id).rh = b.rh := rA.2.2.1.rh
    simp only [height_node] at hh h2
    by_cases hcase : b.lh > b.rh
    · -- RL
      have how : overweight s a.id = .RL := by simp only [overweight, if_neg hlh, hright, ibl, ibr, if_pos hcase]
      cases ee with
      | nil => simp at b1 hcase; omega
      | node e gg ff =>
        obtain ⟨e1, e2, e3, e4, e5, e6⟩ := b5
        obtain ⟨q1, q2, q3⟩ := rotRL_local (E := E) rA hndA hposA
        have hB : (rlB b e gg ff).id = b.id ∧ (rlB b e gg ff).lh = e.rh ∧ (rlB b e gg ff).rh = b.rh := by
          unfold rlB; split <;> exact ⟨rfl, rfl, rfl⟩
        have hE : (rlE E a b e gg ff).id = e.id ∧ (rlE E a b e gg ff).lh = max e.lh a.lh + 1 ∧ (rlE E a b e gg ff).rh = max b.rh e.rh + 1 := by
          unfold rlE; split <;> exact ⟨rfl, rfl, rfl⟩
        have okb := hok b (by simp)
        have oke := hok e (by simp)
        have hvals : (rlE E a b e gg ff).vals ++ (elems ff ++ (rlB b e gg ff).vals) = e.vals ++ (elems ff ++ b.vals) := by
          unfold rlB rlE
          by_cases sp : Special b e gg ff
          · rw [if_pos sp, if_pos sp]
            have hf : ff = .nil := by
              by_contra hne
              exact rid_ne_zero (t := ff) (fun h => hposA (by simp [h])) hne sp.2.1
            subst hf
            simp only [elems_nil, List.nil_append, List.append_assoc]
            congr 1
            have := List.dropLast_concat_getLast okb.ne
            rw [List.getLastD_eq_getLast?, List.getLast?_eq_some_getLast okb.ne]
            exact this
          · rw [if_neg sp, if_neg sp]
        simp only [height_node] at b1 b3 b4 hh h2
        have havl : AVL (T.node (rlE E a b e gg ff) (.node { a with rh := e.lh } l gg) (.node (rlB b e gg ff) ff dd)) := by
          refine ⟨?_, ?_, ?_, ?_, ⟨h1, e1, ?_, ?_, hll, e5⟩, ?_, ?_, ?_, ?_, e6, b6⟩ <;>
            (try simp only [height_node, hB, hE, e1, e2, b2, h1]) <;> omega
        have hids : (T.node (rlE E a b e gg ff) (.node { a with rh := e.lh } l gg) (.node (rlB b e gg ff) ff dd)).ids = (T.node a l (.node b (.node e gg ff) dd)).ids := by
          simp [hB.1, hE.1]
        have hrep := gpFix_height hr (by simp) (by simp) q2 q3 hids havl
        have eq : rotate E s a.id (overweight s a.id) = gpFix (rotRL E s a.id).1 (pid c) a.id (rlE E a b e gg ff).id := by simp only [how, rotate, q1, hpar, hE.1]
        rw [eq]
        refine ⟨_, hrep, ⟨havl, hids, ?_, ?_, by simp⟩, hrep.focus.2.2.1.1.parent, ?_, ?_, ?_⟩
        · simp only [elems_node, List.append_assoc]
          have := congrArg (fun z => elems l ++ (a.vals ++ (elems gg ++ (z ++ elems dd)))) hvals
          simp only [List.append_assoc] at this
          rw [this]
        · have okB : NOk E (rlB b e gg ff) := by
            unfold rlB
            by_cases sp : Special b e gg ff
            · rw [if_pos sp]
              refine ⟨by simp, by simp [CAP], ?_, ?_⟩
              · simpa using okb.mx
              · simpa using okb.mx
            · rw [if_neg sp]; exact okb.congr rfl rfl rfl
          have okE : NOk E (rlE E a b e gg ff) := by
            unfold rlE
            by_cases sp : Special b e gg ff
            · rw [if_pos sp]
              have hlen := sp.2.2.2
              have hlen1 := sp.1
              refine ⟨by simp [oke.ne], by simp [hlen, hlen1, CAP], ?_, rfl⟩
              simp only
              rw [headD_append oke.ne, oke.mn]
            · rw [if_neg sp]; exact oke.congr rfl rfl rfl
          intro d hd
          simp only [nodes_node, List.mem_append, List.mem_cons] at hd hok
          rcases hd with (hd | rfl | hd) | rfl | hd | rfl | hd
          · exact hok d (by simp [hd])
          · exact (hok a (by simp)).congr rfl rfl rfl
          · exact hok d (by simp [hd])
          · exact okE
          · exact hok d (by simp [hd])
          · exact okB
          · exact hok d (by simp [hd])
        · simp only [height_node]; omega
        · simp only [height_node]; omega
        · intro _
          simp only [height_node]; omega
    · -- RR
      have how : overweight s a.id = .RR := by simp only [overweight, if_neg hlh, hright, ibl, ibr, if_neg hcase]
      obtain ⟨q1, q2, q3⟩ := rotRR_local rA hndA hposA
      have havl : AVL (T.node { b with lh := max b.lh a.lh + 1 } (.node { a with rh := b.lh } l ee) dd) := by
        refine ⟨?_, b2, ?_, ?_, ⟨h1, b1, ?_, ?_, hll, b5⟩, b6⟩ <;> (try simp only [height_node, b1, h1]) <;> omega
      have hids : (T.node { b with lh := max b.lh a.lh + 1 } (.node { a with rh := b.lh } l ee) dd).ids = (T.node a l (.node b ee dd)).ids := by simp
      have hrep := gpFix_height hr (by simp) (by simp) q2 q3 hids havl
      have e : rotate E s a.id (overweight s a.id) = gpFix (rotRR s a.id).1 (pid c) a.id b.id := by simp only [how, rotate, q1, hpar]
      rw [e]
      refine ⟨_, hrep, ⟨havl, hids, by simp, ?_, by simp⟩, hrep.focus.2.2.1.1.parent, ?_, ?_, ?_⟩
      · intro d hd
        simp only [nodes_node, List.mem_append, List.mem_cons] at hd hok
        rcases hd with (hd | rfl | hd) | rfl | hd
        · exact hok d (by simp [hd])
        · exact (hok a (by simp)).congr rfl rfl rfl
        · exact hok d (by simp [hd])
        · exact (hok b (by simp)).congr rfl rfl rfl
        · exact hok d (by simp [hd])
      · simp only [height_node]; omega
      · simp only [height_node]; omega
      · rintro ⟨d, l, r, e, hne⟩
        injection e with e1 e2 e3
        subst e2 e3
        simp only [height_node]; omega

/-! ## Contexts that fit a subtree of height `k` -/

/-- With any balanced subtree of height `k` in the hole, the whole is balanced. -/
def AVLc : Ctx κ → Nat → Prop
  | [], _ => True
  | .L d r :: c, k => d.lh = k ∧ d.rh = r.height ∧ k ≤ r.height + 1 ∧ r.height ≤ k + 1 ∧ AVL r ∧ AVLc c (max k r.height + 1)
  | .R d l :: c, k => d.lh = l.height ∧ d.rh = k ∧ l.height ≤ k + 1 ∧ k ≤ l.height + 1 ∧ AVL l ∧ AVLc c (max l.height k + 1)

theorem avl_plug : ∀ {c : Ctx κ} {t : T κ}, AVL (plug c t) ↔ AVL t ∧ AVLc c t.height := by
  intro c
  induction c with
  | nil => intro t; simp [plug, AVLc]
  | cons f c ih =>
    intro t
    rw [plug, ih]
    cases f <;> simp only [Frame.fill, AVL, AVLc, height_node] <;> tauto

theorem setHc_of_AVLc {c : Ctx κ} {k : Nat} (h : AVLc c k) : setHc c k = c := by
  cases c with
  | nil => rfl
  | cons f c =>
    cases f with
    | L d r => simp only [setHc, Frame.setH, ← h.1]
    | R d l => simp only [setHc, Frame.setH, ← h.2.1]

/-- Content of the frames: rows and node conditions. -/
theorem setHc_elems (c : Ctx κ) (k : Nat) : elemsC (preN (setHc c k)) = elemsC (preN c) ∧ elemsC (postN (setHc c k)) = elemsC (postN c) := by
  cases c with
  | nil => exact ⟨rfl, rfl⟩
  | cons f c => cases f <;> simp [setHc, Frame.setH, preN, postN, elemsC]

theorem setHc_nok {E : Env κ} {c : Ctx κ} (k : Nat) (h : ∀ d ∈ preN c ++ postN c, NOk E d) : ∀ d ∈ preN (setHc c k) ++ postN (setHc c k), NOk E d := by
  cases c with
  | nil => exact h
  | cons f c =>
    cases f with
    | L d r =>
      intro e he
      simp only [setHc, Frame.setH, preN, postN, List.mem_append, List.mem_cons, List.cons_append] at he h
      rcases he with he | rfl | he
      · exact h e (.inl he)
      · exact (h d (by simp)).congr rfl rfl rfl
      · exact h e (.inr (.inr he))
    | R d l =>
      intro e he
      simp only [setHc, Frame.setH, preN, postN, List.mem_append, List.mem_singleton] at he h
      rcases he with (he | he | rfl) | he
      · exact h e (.inl (.inl he))
      · exact h e (.inl (.inr (.inl he)))
      · exact (h d (by simp)).congr rfl rfl rfl
      · exact h e (.inr he)

end WG.TTree
