import Verif.TTree.Balance
/-!
# The loops towards the root
-/
namespace WG.TTree
variable {κ : Type}
open T

theorem Rep.nodup3 {s : St κ} {c : Ctx κ} {t : T κ} (h : Rep s (plug c t)) :
    t.ids.Nodup ∧ 0 ∉ t.ids ∧ (∀ d ∈ preN c, d.id ∉ t.ids) ∧ (∀ d ∈ postN c, d.id ∉ t.ids) := by
  have h1 := h.nodup
  have h2 := h.pos
  rw [ids_plug] at h1 h2
  simp only [List.nodup_append, List.mem_append, not_or] at h1 h2
  exact ⟨h1.1.2.1, h2.1.2, fun d hd hm => h1.1.2.2 _ (List.mem_map_of_mem hd) _ hm rfl, fun d hd hm => h1.2.2 _ (.inr hm) _ (List.mem_map_of_mem hd) rfl⟩

/-- Change of data fields of one node. -/
theorem Rep.modFocus {s : St κ} {c : Ctx κ} {d d' : D κ} {l r : T κ} (h : Rep s (plug c (.node d l r))) (g : Nd κ → Nd κ)
    (hid : d'.id = d.id) (hg : (g (s.h d.id)).succ = (s.h d.id).succ ∧ (g (s.h d.id)).pred = (s.h d.id).pred)
    (hi : (g (s.h d.id)).Is (pid c) l.rid r.rid d') : Rep (s.mod d.id g) (plug c (.node d' l r)) := by
  obtain ⟨rC, rT⟩ := h.focus
  obtain ⟨n1, n2, n3, n4⟩ := h.nodup3
  have hids : (plug c (.node d' l r)).ids = (plug c (.node d l r)).ids := by simp [ids_plug, hid]
  simp only [ids_node, List.nodup_append, List.nodup_cons, List.mem_cons] at n1
  have ht : RepC (s.mod d.id g).h s.root c d.id ∧ RepT (s.mod d.id g).h (pid c) (.node d' l r) := by
    refine ⟨rC.congr ?_ ?_, ?_, ?_, ?_⟩
    · intro e he
      rw [St.mod_ne _ _ (fun x => n3 e he (by simp [x]))]; exact Nd.Same.refl _
    · intro e he
      rw [St.mod_ne _ _ (fun x => n4 e he (by simp [x]))]; exact Nd.Same.refl _
    · rw [hid, St.mod_self]; exact hi
    · rw [hid]
      refine rT.2.1.congr ?_
      intro i hi'
      rw [St.mod_ne _ _ (fun x => n1.2.2 i hi' _ (.inl rfl) x)]; exact Nd.Same.refl _
    · rw [hid]
      refine rT.2.2.congr ?_
      intro i hi'
      rw [St.mod_ne _ _ (fun x : i = d.id => n1.2.1.1 (x ▸ hi'))]; exact Nd.Same.refl _
  have ht' : RepC (s.mod d.id g).h s.root c (T.node d' l r).rid ∧ RepT (s.mod d.id g).h (pid c) (.node d' l r) := by
    rw [rid_node, hid]; exact ht
  obtain ⟨q1, q2⟩ := repT_plug.2 ht'
  refine ⟨q1, q2, by rw [hids]; exact h.nodup, by rw [hids]; exact h.pos, ?_, by rw [hids]; exact h.minN, by rw [hids]; exact h.maxN⟩
  rw [hids]
  refine h.chain.congr ?_
  intro i _
  by_cases e : i = d.id
  · rw [e, St.mod_self]; exact hg
  · rw [St.mod_ne _ _ e]; exact ⟨rfl, rfl⟩

/-- A state that represents a balanced tree with good nodes. -/
structure Whole (E : Env κ) (s : St κ) (t : T κ) : Prop where
  rep : Rep s t
  avl : AVL t
  nok : ∀ d ∈ t.nodes, NOk E d

theorem nok_plug {E : Env κ} {c : Ctx κ} {t : T κ} : (∀ d ∈ (plug c t).nodes, NOk E d) ↔ (∀ d ∈ preN c ++ postN c, NOk E d) ∧ (∀ d ∈ t.nodes, NOk E d) := by
  rw [nodes_plug]
  simp only [List.mem_append]
  constructor
  · intro h
    exact ⟨fun d hd => h d (by tauto), fun d hd => h d (by tauto)⟩
  · rintro ⟨h1, h2⟩ d hd
    rcases hd with (hd | hd) | hd
    · exact h1 d (.inl hd)
    · exact h2 d hd
    · exact h1 d (.inr hd)

theorem Rep.frameL_left {s : St κ} {c : Ctx κ} {d : D κ} {r t : T κ} (h : Rep s (plug (.L d r :: c) t)) : (s.h d.id).left = t.rid :=
  h.focus.1.1.left

theorem Rep.frameR_left {s : St κ} {c : Ctx κ} {d : D κ} {l t : T κ} (h : Rep s (plug (.R d l :: c) t)) (ht : t ≠ .nil) : (s.h d.id).left ≠ t.rid := by
  rw [h.focus.1.1.left]
  obtain ⟨n1, n2, n3, n4⟩ := h.nodup3
  intro e
  cases l with
  | nil => exact n2 (by rw [show 0 = t.rid from e]; exact rid_mem ht)
  | node d' l1 l2 => exact n3 d' (by simp [preN]) (by rw [show d'.id = t.rid from e]; exact rid_mem ht)

theorem retraceAdd_res {E : Env κ} : ∀ (c : Ctx κ) {k : Nat} {s : St κ} {t : T κ} {h0 : Nat}, c.length < k → Rep s (plug c t) → t ≠ .nil → AVL t →
    t.height = h0 + 1 → AVLc c h0 → (h0 = 0 ∨ Lean t) → (∀ d ∈ (plug c t).nodes, NOk E d) →
    ∃ t', Whole E (retraceAdd E k s t.rid) t' ∧ t'.ids = (plug c t).ids ∧ elems t' = elems (plug c t) := by
  intro c
  induction c with
  | nil =>
    intro k s t h0 hk hr ht ha hh hc hl hok
    cases k with
    | zero => simp at hk
    | succ k =>
      have : (s.h t.rid).parent = 0 := by
        have := hr.focus.2
        cases t with
        | nil => exact absurd rfl ht
        | node d l r => exact this.1.parent
      have e : retraceAdd E (k + 1) s t.rid = s := by simp [retraceAdd, this]
      rw [e]
      exact ⟨t, ⟨hr, ha, hok⟩, rfl, rfl⟩
  | cons f c ih =>
    intro k s t h0 hk hr ht ha hh hc hl hok
    cases k with
    | zero => simp at hk
    | succ k =>
      have hpar : (s.h t.rid).parent = f.d.id := by
        have := hr.focus.2
        cases t with
        | nil => exact absurd rfl ht
        | node d l r => exact this.1.parent
      have hne : f.d.id ≠ 0 := by
        intro e
        refine hr.pos ?_
        rw [ids_plug]
        cases f <;> simp [preN, postN, Frame.d] at e ⊢ <;> simp [e]
      have hok' := nok_plug.1 (show ∀ d ∈ (plug c (f.fill t)).nodes, NOk E d from hok)
      have hids0 : (plug (f :: c) t).ids = (plug c (f.fill t)).ids := rfl
      have hel0 : elems (plug (f :: c) t) = elems (plug c (f.fill t)) := rfl
      rw [hids0, hel0]
      cases f with
      | L d r =>
        simp only [Frame.d] at hpar hne
        obtain ⟨c1, c2, c3, c4, c5, c6⟩ := hc
        have hside := hr.frameL_left
        have i0 := (Rep.focus (c := c) (t := .node d t r) hr).2.1
        have hr1 : Rep (s.mod d.id (fun n => { n with lh := n.lh + 1 })) (plug c (.node { d with lh := d.lh + 1 } t r)) := by
          refine Rep.modFocus (c := c) (d := d) hr _ rfl ⟨rfl, rfl⟩ ?_
          exact ⟨i0.1, i0.2, i0.3, by simp only [i0.4], i0.5, i0.6, i0.7, i0.8⟩
        have hnok1 : ∀ e ∈ (T.node { d with lh := d.lh + 1 } t r).nodes, NOk E e := by
          intro e he
          have := hok'.2
          simp only [Frame.fill, nodes_node, List.mem_append, List.mem_cons] at he this
          rcases he with he | rfl | he
          · exact this e (.inl he)
          · exact (this d (.inr (.inl rfl))).congr rfl rfl rfl
          · exact this e (.inr (.inr he))
        have i1 := hr1.focus.2.1
        have e : retraceAdd E (k + 1) s t.rid =
            if d.lh + 1 = d.rh then s.mod d.id (fun n => { n with lh := n.lh + 1 })
            else if d.lh + 1 > d.rh + 1 ∨ d.rh > d.lh + 1 + 1 then
              rotate E (s.mod d.id (fun n => { n with lh := n.lh + 1 })) d.id (overweight (s.mod d.id (fun n => { n with lh := n.lh + 1 })) d.id)
            else retraceAdd E k (s.mod d.id (fun n => { n with lh := n.lh + 1 })) d.id := by
          have j1 := i1.lh
          have j2 := i1.rh
          simp only at j1 j2
          conv => lhs; unfold retraceAdd
          simp only [hpar, hne, ne_eq, not_false_eq_true, if_true, hside, j1, j2]
        rw [e]
        have hids1 : (plug c (.node { d with lh := d.lh + 1 } t r)).ids = (plug c (Frame.fill (.L d r) t)).ids := by simp [ids_plug, Frame.fill]
        have hel1 : elems (plug c (.node { d with lh := d.lh + 1 } t r)) = elems (plug c (Frame.fill (.L d r) t)) := by simp [elems_plug, Frame.fill]
        split_ifs with g1 g2
        · refine ⟨_, ⟨hr1, avl_plug.2 ⟨⟨by simp only; omega, c2, by omega, by omega, ha, c5⟩, ?_⟩, nok_plug.2 ⟨hok'.1, hnok1⟩⟩, hids1, hel1⟩
          have : (T.node { d with lh := d.lh + 1 } t r).height = max h0 r.height + 1 := by simp only [height_node]; omega
          rw [this]; exact c6
        · have hln : Lean t := by
            rcases hl with hl | hl
            · omega
            · exact hl
          obtain ⟨t', r1, r2, r3, r4, r5, r6⟩ := rotate_left hr1 ha c5 (by simp only; omega) c2 (by omega) hnok1
          have hh' : t'.height = max h0 r.height + 1 := by rw [r6 hln]; omega
          have hset : setHc c t'.height = c := by rw [hh']; exact setHc_of_AVLc c6
          rw [hset] at r1
          refine ⟨_, ⟨r1, avl_plug.2 ⟨r2.avl, by rw [hh']; exact c6⟩, nok_plug.2 ⟨hok'.1, r2.nok⟩⟩, ?_, ?_⟩
          · rw [← hids1, ids_plug, ids_plug, r2.ids]
          · rw [← hel1, elems_plug, elems_plug, r2.elems]
        · obtain ⟨t', q1, q2, q3⟩ := ih (k := k) (s := s.mod d.id (fun n => { n with lh := n.lh + 1 })) (t := .node { d with lh := d.lh + 1 } t r) (h0 := max h0 r.height + 1)
            (by simp only [List.length_cons] at hk; omega) hr1 (by simp) ⟨by simp only; omega, c2, by omega, by omega, ha, c5⟩
            (by simp only [height_node]; omega) c6 (.inr ⟨_, _, _, rfl, by omega⟩) (nok_plug.2 ⟨hok'.1, hnok1⟩)
          exact ⟨t', q1, q2.trans hids1, q3.trans hel1⟩
      | R d l =>
        simp only [Frame.d] at hpar hne
        obtain ⟨c1, c2, c3, c4, c5, c6⟩ := hc
        have hside := hr.frameR_left ht
        have i0 := (Rep.focus (c := c) (t := .node d l t) hr).2.1
        have hr1 : Rep (s.mod d.id (fun n => { n with rh := n.rh + 1 })) (plug c (.node { d with rh := d.rh + 1 } l t)) := by
          refine Rep.modFocus (c := c) (d := d) hr _ rfl ⟨rfl, rfl⟩ ?_
          exact ⟨i0.1, i0.2, i0.3, i0.4, by simp only [i0.5], i0.6, i0.7, i0.8⟩
        have hnok1 : ∀ e ∈ (T.node { d with rh := d.rh + 1 } l t).nodes, NOk E e := by
          intro e he
          have := hok'.2
          simp only [Frame.fill, nodes_node, List.mem_append, List.mem_cons] at he this
          rcases he with he | rfl | he
          · exact this e (.inl he)
          · exact (this d (.inr (.inl rfl))).congr rfl rfl rfl
          · exact this e (.inr (.inr he))
        have i1 := hr1.focus.2.1
        have e : retraceAdd E (k + 1) s t.rid =
            if d.lh = d.rh + 1 then s.mod d.id (fun n => { n with rh := n.rh + 1 })
            else if d.lh > d.rh + 1 + 1 ∨ d.rh + 1 > d.lh + 1 then
              rotate E (s.mod d.id (fun n => { n with rh := n.rh + 1 })) d.id (overweight (s.mod d.id (fun n => { n with rh := n.rh + 1 })) d.id)
            else retraceAdd E k (s.mod d.id (fun n => { n with rh := n.rh + 1 })) d.id := by
          have j1 := i1.lh
          have j2 := i1.rh
          simp only at j1 j2
          conv => lhs; unfold retraceAdd
          simp only [hpar, hne, ne_eq, not_false_eq_true, if_true, hside, if_false, j1, j2]
        rw [e]
        have hids1 : (plug c (.node { d with rh := d.rh + 1 } l t)).ids = (plug c (Frame.fill (.R d l) t)).ids := by simp [ids_plug, Frame.fill]
        have hel1 : elems (plug c (.node { d with rh := d.rh + 1 } l t)) = elems (plug c (Frame.fill (.R d l) t)) := by simp [elems_plug, Frame.fill]
        split_ifs with g1 g2
        · refine ⟨_, ⟨hr1, avl_plug.2 ⟨⟨c1, by simp only; omega, by omega, by omega, c5, ha⟩, ?_⟩, nok_plug.2 ⟨hok'.1, hnok1⟩⟩, hids1, hel1⟩
          have : (T.node { d with rh := d.rh + 1 } l t).height = max l.height h0 + 1 := by simp only [height_node]; omega
          rw [this]; exact c6
        · have hln : Lean t := by
            rcases hl with hl | hl
            · omega
            · exact hl
          obtain ⟨t', r1, r2, r3, r4, r5, r6⟩ := rotate_right hr1 c5 ha c1 (by simp only; omega) (by omega) hnok1
          have hh' : t'.height = max l.height h0 + 1 := by rw [r6 hln]; omega
          have hset : setHc c t'.height = c := by rw [hh']; exact setHc_of_AVLc c6
          rw [hset] at r1
          refine ⟨_, ⟨r1, avl_plug.2 ⟨r2.avl, by rw [hh']; exact c6⟩, nok_plug.2 ⟨hok'.1, r2.nok⟩⟩, ?_, ?_⟩
          · rw [← hids1, ids_plug, ids_plug, r2.ids]
          · rw [← hel1, elems_plug, elems_plug, r2.elems]
        · obtain ⟨t', q1, q2, q3⟩ := ih (k := k) (s := s.mod d.id (fun n => { n with rh := n.rh + 1 })) (t := .node { d with rh := d.rh + 1 } l t) (h0 := max l.height h0 + 1)
            (by simp only [List.length_cons] at hk; omega) hr1 (by simp) ⟨c1, by simp only; omega, by omega, by omega, c5, ha⟩
            (by simp only [height_node]; omega) c6 (.inr ⟨_, _, _, rfl, by omega⟩) (nok_plug.2 ⟨hok'.1, hnok1⟩)
          exact ⟨t', q1, q2.trans hids1, q3.trans hel1⟩

/-- The height recorded above the hole is overwritten. -/
theorem Rep.setFrame {s : St κ} {f : Frame κ} {c : Ctx κ} {t : T κ} {j : Nat} (hr : Rep s (plug (setHc (f :: c) j) t)) (ht : t ≠ .nil) (x : Nat) :
    Rep (if (s.h f.d.id).left = t.rid then s.mod f.d.id (fun n => { n with lh := x }) else s.mod f.d.id (fun n => { n with rh := x }))
      (plug (setHc (f :: c) x) t) := by
  cases f with
  | L d r =>
    have hside : (s.h d.id).left = t.rid := Rep.frameL_left (d := { d with lh := j }) hr
    have i0 := (Rep.focus (c := c) (t := .node { d with lh := j } t r) hr).2.1
    simp only [Frame.d, hside, if_true]
    refine Rep.modFocus (c := c) (d := { d with lh := j }) hr _ rfl ⟨rfl, rfl⟩ ?_
    exact ⟨i0.1, i0.2, i0.3, rfl, i0.5, i0.6, i0.7, i0.8⟩
  | R d l =>
    have hside : (s.h d.id).left ≠ t.rid := Rep.frameR_left (d := { d with rh := j }) hr ht
    have i0 := (Rep.focus (c := c) (t := .node { d with rh := j } l t) hr).2.1
    simp only [Frame.d, hside, if_false]
    refine Rep.modFocus (c := c) (d := { d with rh := j }) hr _ rfl ⟨rfl, rfl⟩ ?_
    exact ⟨i0.1, i0.2, i0.3, i0.4, rfl, i0.6, i0.7, i0.8⟩

/-- What the upward loop of a removal meets at a node whose subtree used to have height `K`. -/
structure Bal (t : T κ) (K : Nat) : Prop where
  sub : ∃ d l r, t = .node d l r ∧ AVL l ∧ AVL r ∧ d.lh = l.height ∧ d.rh = r.height ∧
    ((l.height ≤ r.height + 1 ∧ r.height ≤ l.height + 1 ∧ (t.height = K ∨ t.height + 1 = K)) ∨
      ((l.height = r.height + 2 ∨ r.height = l.height + 2) ∧ t.height = K))

theorem bal_up {f : Frame κ} {c : Ctx κ} {t : T κ} {K : Nat} (ha : AVL t) (hK : t.height = K ∨ t.height + 1 = K) (hc : AVLc (f :: c) K) :
    ∃ M, AVLc c M ∧ Bal ((f.setH t.height).fill t) M := by
  cases f with
  | L d r =>
    obtain ⟨c1, c2, c3, c4, c5, c6⟩ := hc
    refine ⟨_, c6, ⟨_, _, _, rfl, ha, c5, rfl, c2, ?_⟩⟩
    simp only [Frame.setH, Frame.fill, height_node]
    omega
  | R d l =>
    obtain ⟨c1, c2, c3, c4, c5, c6⟩ := hc
    refine ⟨_, c6, ⟨_, _, _, rfl, c5, ha, c1, rfl, ?_⟩⟩
    simp only [Frame.setH, Frame.fill, height_node]
    omega

theorem setHc_setHc (c : Ctx κ) (j k : Nat) : setHc (setHc c j) k = setHc c k := by
  cases c with
  | nil => rfl
  | cons f c => cases f <;> rfl

theorem nok_setHc {E : Env κ} {c : Ctx κ} {t : T κ} (j : Nat) (h : ∀ d ∈ (plug c t).nodes, NOk E d) : ∀ d ∈ (plug (setHc c j) t).nodes, NOk E d := by
  rw [nok_plug] at h ⊢
  exact ⟨setHc_nok j h.1, h.2⟩

theorem ids_setHc (c : Ctx κ) (t : T κ) (j : Nat) : (plug (setHc c j) t).ids = (plug c t).ids := by
  rw [ids_plug, ids_plug, (setHc_ids c j).1, (setHc_ids c j).2]

theorem elems_setHc (c : Ctx κ) (t : T κ) (j : Nat) : elems (plug (setHc c j) t) = elems (plug c t) := by
  rw [elems_plug, elems_plug, (setHc_elems c j).1, (setHc_elems c j).2]

theorem Rep.rid_parent {s : St κ} {c : Ctx κ} {t : T κ} (hr : Rep s (plug c t)) (ht : t ≠ .nil) : (s.h t.rid).parent = pid c := by
  have := hr.focus.2
  cases t with
  | nil => exact absurd rfl ht
  | node d l r => exact this.1.parent

theorem Rep.frame_ne {s : St κ} {f : Frame κ} {c : Ctx κ} {t : T κ} (hr : Rep s (plug (f :: c) t)) : f.d.id ≠ 0 := by
  intro e
  refine hr.pos ?_
  rw [ids_plug]
  cases f <;> simp [preN, postN, Frame.d] at e ⊢ <;> simp [e]

theorem retraceDel_res {E : Env κ} : ∀ (c : Ctx κ) {k : Nat} {s : St κ} {t : T κ} {j K : Nat}, 2 * c.length + 1 < k → Rep s (plug (setHc c j) t) →
    Bal t K → AVLc c K → (∀ d ∈ (plug c t).nodes, NOk E d) →
    ∃ t', Whole E (retraceDel E k s t.rid) t' ∧ t'.ids = (plug c t).ids ∧ elems t' = elems (plug c t) := by
  intro c
  induction c with
  | nil =>
    intro k s t j K hk hr hb hc hok
    obtain ⟨d, l, r, rfl, a1, a2, a3, a4, hb⟩ := hb
    cases k with
    | zero => simp at hk
    | succ k =>
      have hr : Rep s (plug [] (.node d l r)) := hr
      have i0 := hr.focus.2.1
      have bal : ∀ {k : Nat} {s : St κ} {t : T κ}, 0 < k → Rep s t → AVL t → t ≠ .nil → retraceDel E k s t.rid = s := by
        intro k s t hk hr ha ht
        cases k with
        | zero => simp at hk
        | succ k =>
          cases t with
          | nil => exact absurd rfl ht
          | node d l r =>
            have i0 := (Rep.focus (c := []) hr).2.1
            have hp : (s.h d.id).parent = 0 := i0.parent
            obtain ⟨q1, q2, q3, q4, q5, q6⟩ := ha
            conv => lhs; unfold retraceDel
            have : ¬ (d.lh > d.rh + 1 ∨ d.rh > d.lh + 1) := by omega
            simp only [rid_node, i0.lh, i0.rh, this, if_false, hp, ne_eq, not_true_eq_false, if_true]
      rcases hb with ⟨b1, b2, b3⟩ | ⟨b1, b2⟩
      · have ha : AVL (T.node d l r) := ⟨a3, a4, b1, b2, a1, a2⟩
        rw [bal (t := T.node d l r) (Nat.succ_pos k) hr ha (by simp)]
        exact ⟨_, ⟨hr, ha, hok⟩, rfl, rfl⟩
      · have hrot : ∃ t', Rep (rotate E s d.id (overweight s d.id)) t' ∧ Rot E (.node d l r) t' ∧
            ((rotate E s d.id (overweight s d.id)).h d.id).parent = t'.rid := by
          rcases b1 with b1 | b1
          · obtain ⟨t', r1, r2, r3, r4, r5, r6⟩ := rotate_left hr a1 a2 a3 a4 b1 hok
            exact ⟨t', r1, r2, r3⟩
          · obtain ⟨t', r1, r2, r3, r4, r5, r6⟩ := rotate_right hr a1 a2 a3 a4 b1 hok
            exact ⟨t', r1, r2, r3⟩
        obtain ⟨t', r1, r2, r3⟩ := hrot
        have hne : t'.rid ≠ 0 := fun e => r1.pos (e ▸ rid_mem r2.ne)
        have : retraceDel E (k + 1) s d.id = rotate E s d.id (overweight s d.id) := by
          conv => lhs; unfold retraceDel
          have h1 : d.lh > d.rh + 1 ∨ d.rh > d.lh + 1 := by omega
          simp only [i0.lh, i0.rh, h1, if_true, r3, hne, if_false]
          exact bal (by simp at hk; omega) r1 r2.avl r2.ne
        rw [rid_node, this]
        exact ⟨t', ⟨r1, r2.avl, r2.nok⟩, r2.ids, r2.elems⟩
  | cons f c ih =>
    -- the balanced case
    have bal : ∀ {k : Nat} {s : St κ} {t : T κ} {j K : Nat}, 2 * c.length + 2 < k → Rep s (plug (setHc (f :: c) j) t) →
        AVL t → t ≠ .nil → (t.height = K ∨ t.height + 1 = K) → AVLc (f :: c) K → (∀ d ∈ (plug (f :: c) t).nodes, NOk E d) →
        ∃ t', Whole E (retraceDel E k s t.rid) t' ∧ t'.ids = (plug (f :: c) t).ids ∧ elems t' = elems (plug (f :: c) t) := by
      intro k s t j K hk hr ha ht hK hc hok
      cases k with
      | zero => simp at hk
      | succ k =>
        have hset := hr.setFrame ht t.height
        have hp : (s.h t.rid).parent = f.d.id := by rw [hr.rid_parent ht, setHc_pid]; rfl
        have hp' := hset.rid_parent ht
        rw [setHc_pid] at hp'
        have hp' : _ = f.d.id := hp'
        have hfne : f.d.id ≠ 0 := by
          have := Rep.frame_ne (f := f.setH j) hr
          cases f <;> exact this
        obtain ⟨M, m1, m2⟩ := bal_up ha hK hc
        have e : retraceDel E (k + 1) s t.rid = retraceDel E k (if (s.h f.d.id).left = t.rid then s.mod f.d.id (fun n => { n with lh := t.height })
            else s.mod f.d.id (fun n => { n with rh := t.height })) f.d.id := by
          cases t with
          | nil => exact absurd rfl ht
          | node d l r =>
            have i0 := hr.focus.2.1
            obtain ⟨q1, q2, q3, q4, q5, q6⟩ := ha
            have n1 : ¬ (d.lh > d.rh + 1 ∨ d.rh > d.lh + 1) := by omega
            have n2 : 1 + max d.lh d.rh = (T.node d l r).height := by simp only [height_node]; omega
            simp only [rid_node] at hp hp' ⊢
            conv => lhs; unfold retraceDel
            by_cases hs : (s.h f.d.id).left = d.id
            · simp only [hs, if_true] at hp' ⊢
              simp only [i0.lh, i0.rh, n1, if_false, hp, ne_eq, hfne, not_false_eq_true, if_true, n2, hs, hp']
            · simp only [hs, if_false] at hp' ⊢
              simp only [i0.lh, i0.rh, n1, if_false, hp, ne_eq, hfne, not_false_eq_true, if_true, n2, hs, hp']
        rw [e]
        have hj : AVLc c M := m1
        have hset' := hset
        rw [show plug (setHc (f :: c) t.height) t = plug (setHc c M) ((f.setH t.height).fill t) by rw [setHc_of_AVLc hj]; rfl] at hset'
        obtain ⟨t', w1, w2, w3⟩ := ih (k := k) (by omega) hset' m2 hj (nok_setHc (c := f :: c) t.height hok)
        have hrid : ((f.setH t.height).fill t).rid = f.d.id := by cases f <;> rfl
        rw [hrid] at w1
        exact ⟨t', w1, w2.trans (ids_setHc (f :: c) t _), w3.trans (elems_setHc (f :: c) t _)⟩
    intro k s t j K hk hr hb hc hok
    obtain ⟨d, l, r, rfl, a1, a2, a3, a4, hb⟩ := hb
    simp only [List.length_cons] at hk
    rcases hb with ⟨b1, b2, b3⟩ | ⟨b1, b2⟩
    · exact bal (by omega) hr ⟨a3, a4, b1, b2, a1, a2⟩ (by simp) b3 hc hok
    · cases k with
      | zero => simp at hk
      | succ k =>
        have i0 := hr.focus.2.1
        have hokn := (nok_plug.1 hok)
        have hrot : ∃ t', Rep (rotate E s d.id (overweight s d.id)) (plug (setHc (setHc (f :: c) j) t'.height) t') ∧ Rot E (.node d l r) t' ∧
            ((rotate E s d.id (overweight s d.id)).h d.id).parent = t'.rid ∧ (t'.height = K ∨ t'.height + 1 = K) := by
          rcases b1 with b1 | b1
          · obtain ⟨t', r1, r2, r3, r4, r5, r6⟩ := rotate_left hr a1 a2 a3 a4 b1 hokn.2
            exact ⟨t', r1, r2, r3, by simp only [height_node] at b2; omega⟩
          · obtain ⟨t', r1, r2, r3, r4, r5, r6⟩ := rotate_right hr a1 a2 a3 a4 b1 hokn.2
            exact ⟨t', r1, r2, r3, by simp only [height_node] at b2; omega⟩
        obtain ⟨t', r1, r2, r3, r4⟩ := hrot
        rw [setHc_setHc] at r1
        have hne : t'.rid ≠ 0 := fun e => r1.nodup3.2.1 (e ▸ rid_mem r2.ne)
        have e : retraceDel E (k + 1) s d.id = retraceDel E k (rotate E s d.id (overweight s d.id)) t'.rid := by
          conv => lhs; unfold retraceDel
          have h1 : d.lh > d.rh + 1 ∨ d.rh > d.lh + 1 := by omega
          simp only [i0.lh, i0.rh, h1, if_true, r3, hne, if_false]
        rw [rid_node, e]
        obtain ⟨t'', w1, w2, w3⟩ := bal (k := k) (by omega) r1 r2.avl r2.ne r4 hc (nok_plug.2 ⟨hokn.1, r2.nok⟩)
        refine ⟨t'', w1, w2.trans ?_, w3.trans ?_⟩
        · rw [ids_plug, ids_plug, r2.ids]
        · rw [elems_plug, elems_plug, r2.elems]

end WG.TTree
