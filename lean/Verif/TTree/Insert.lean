import Verif.TTree.Chain
/-!
# Adding a row
-/
namespace WG.TTree
variable {κ : Type}
open T

theorem St.mod_mod (s : St κ) (i : Nat) (f g : Nd κ → Nd κ) : (s.mod i f).mod i g = s.mod i (fun n => g (f n)) := by
  unfold St.mod
  congr 1
  funext j
  by_cases e : j = i <;> simp [e]

/-- Change of data fields of one node of a whole tree. -/
theorem Whole.modFocus {E : Env κ} {s : St κ} {c : Ctx κ} {d d' : D κ} {l r : T κ} (h : Whole E s (plug c (.node d l r))) (g : Nd κ → Nd κ)
    (hid : d'.id = d.id ∧ d'.lh = d.lh ∧ d'.rh = d.rh) (hg : (g (s.h d.id)).succ = (s.h d.id).succ ∧ (g (s.h d.id)).pred = (s.h d.id).pred)
    (hi : (g (s.h d.id)).Is (pid c) l.rid r.rid d') (hok : NOk E d') : Whole E (s.mod d.id g) (plug c (.node d' l r)) := by
  refine ⟨h.rep.modFocus g hid.1 hg hi, ?_, ?_⟩
  · have := h.avl
    rw [avl_plug] at this ⊢
    refine ⟨?_, this.2⟩
    have := this.1
    exact ⟨hid.2.1.trans this.1, hid.2.2.trans this.2.1, this.2.2⟩
  · have := h.nok
    rw [nok_plug] at this ⊢
    refine ⟨this.1, ?_⟩
    intro e he
    simp only [nodes_node, List.mem_append, List.mem_cons] at he
    rcases he with he | rfl | he
    · exact this.2 e (by simp [he])
    · exact hok
    · exact this.2 e (by simp [he])

theorem slotFirst_spec (E : Env κ) (v : κ) : ∀ (l : List Nat), (∀ x ∈ l.take (slotFirst E v l), E.cmp (E.key x) v = .lt) ∧
    (∀ x ∈ (l.drop (slotFirst E v l)).head?, E.cmp (E.key x) v ≠ .lt) ∧ slotFirst E v l ≤ l.length := by
  intro l
  induction l with
  | nil => simp [slotFirst]
  | cons a l ih =>
    unfold slotFirst
    by_cases g : E.cmp (E.key a) v ≠ .lt
    · rw [if_pos g]; simpa using g
    · rw [if_neg g]
      rw [not_not] at g
      refine ⟨?_, ?_, by simpa using ih.2.2⟩
      · intro x hx
        simp only [List.take_succ_cons, List.mem_cons] at hx
        rcases hx with rfl | hx
        · exact g
        · exact ih.1 x hx
      · simpa using ih.2.1

theorem slotLast_spec (E : Env κ) (v : κ) (l : List Nat) : ∀ (i : Nat), slotLast E v l i ≤ i ∧
    (slotLast E v l i = 0 ∨ E.cmp (E.key (l.getD (slotLast E v l i) 0)) v ≠ .gt) ∧
    (∀ j, slotLast E v l i < j → j ≤ i → E.cmp (E.key (l.getD j 0)) v = .gt) := by
  intro i
  induction i with
  | zero => simp only [slotLast]; exact ⟨Nat.le_refl _, by simp, fun j h1 h2 => by omega⟩
  | succ i ih =>
    unfold slotLast
    split_ifs with g
    · exact ⟨Nat.le_refl _, .inr g, fun j h1 h2 => by omega⟩
    · refine ⟨by omega, ih.2.1, fun j h1 h2 => ?_⟩
      by_cases e : j = i + 1
      · subst e; exact not_not.1 g
      · exact ih.2.2 j h1 (by omega)

/-- The outcome of an insertion: the row at a fitting position. -/
structure Ins (E : Env κ) (row : Nat) (old new : List Nat) : Prop where
  pos : ∃ A B, old = A ++ B ∧ new = A ++ row :: B ∧ (∀ a ∈ A, E.le (E.key a) (E.key row)) ∧ (∀ b ∈ B, E.le (E.key row) (E.key b))

theorem Ins.sorted {E : Env κ} {P : κ → Prop} {row : Nat} {old new : List Nat} (h : Ins E row old new) (hs : Sorted E P old) (hp : P (E.key row)) : Sorted E P new := by
  obtain ⟨A, B, rfl, rfl, h1, h2⟩ := h
  have := hs.pw
  rw [List.pairwise_append] at this
  refine ⟨?_, ?_⟩
  · rw [List.pairwise_append]
    refine ⟨this.1, List.pairwise_cons.2 ⟨h2, this.2.1⟩, ?_⟩
    intro a ha b hb
    rcases List.mem_cons.1 hb with rfl | hb
    · exact h1 a ha
    · exact this.2.2 a ha b hb
  · intro x hx
    rcases List.mem_append.1 hx with hx | hx
    · exact hs.P x (by simp [hx])
    · rcases List.mem_cons.1 hx with rfl | hx
      · exact hp
      · exact hs.P x (by simp [hx])

theorem Ins.perm {E : Env κ} {row : Nat} {old new : List Nat} (h : Ins E row old new) : new.Perm (row :: old) := by
  obtain ⟨A, B, rfl, rfl, h1, h2⟩ := h
  exact List.perm_middle

/-- Sorted rows in the neighbourhood of a node. -/
theorem Sorted.around {E : Env κ} {P : κ → Prop} (O : Ord E P) {pre post : List (D κ)} {d : D κ} (hs : Sorted E P (elemsC (pre ++ d :: post)))
    (hok : ∀ e ∈ pre ++ d :: post, NOk E e) :
    (∀ a ∈ elemsC pre, E.le (E.key a) d.mn ∧ P (E.key a)) ∧ (∀ b ∈ elemsC post, E.le d.mx (E.key b) ∧ P (E.key b)) ∧
    (∀ x ∈ d.vals, E.le d.mn (E.key x) ∧ E.le (E.key x) d.mx ∧ P (E.key x)) ∧ d.vals.Pairwise (fun a b => E.le (E.key a) (E.key b)) ∧ P d.mn ∧ P d.mx := by
  have hd := hok d (by simp)
  have e : elemsC (pre ++ d :: post) = elemsC pre ++ (d.vals ++ elemsC post) := by simp [elemsC]
  rw [e] at hs
  have hpw := hs.pw
  rw [List.pairwise_append, List.pairwise_append] at hpw
  obtain ⟨p1, ⟨p2, p3, p4⟩, p5⟩ := hpw
  have hh := head_mem hd.ne
  have hl := last_mem hd.ne
  rw [hd.mn, hd.mx]
  refine ⟨fun a ha => ⟨p5 a ha _ (by simp only [List.mem_append]; exact .inl hh), hs.P a (by simp [ha])⟩, fun b hb => ⟨p4 _ hl b hb, hs.P b (by simp [hb])⟩, ?_, p2,
    hs.P _ (by simp only [List.mem_append]; exact .inr (.inl hh)), hs.P _ (by simp only [List.mem_append]; exact .inr (.inl hl))⟩
  intro x hx
  refine ⟨?_, ?_, hs.P x (by simp [hx])⟩
  · cases hv : d.vals with
    | nil => exact absurd hv hd.ne
    | cons a m =>
      rw [hv] at p2 hx
      rw [List.headD_cons]
      rcases List.mem_cons.1 hx with rfl | hx
      · exact O.refl (hs.P x (by simp [hv]))
      · exact (List.pairwise_cons.1 p2).1 x hx
  · have hdl := List.dropLast_concat_getLast hd.ne
    have hg : d.vals.getLastD 0 = d.vals.getLast hd.ne := by rw [List.getLastD_eq_getLast?, List.getLast?_eq_some_getLast hd.ne]; rfl
    rw [hg]
    rw [← hdl] at hx p2
    rcases List.mem_append.1 hx with hx | hx
    · exact (List.pairwise_append.1 p2).2.2 x hx _ (by simp)
    · rw [List.mem_singleton] at hx
      rw [← hx]
      exact O.refl (hs.P x (by rw [hx]; simp only [List.mem_append]; exact .inr (.inl (List.getLast_mem _))))

/-- What `ttree_add_row` does to a non-empty index. -/
structure Added (E : Env κ) (row : Nat) (nn : Option Nat) (t t' : T κ) : Prop where
  ins : Ins E row (elems t) (elems t')
  ids : ∀ i ∈ t'.ids, i ∈ t.ids ∨ nn = some i
  sub : ∀ i ∈ t.ids, i ∈ t'.ids

theorem length_le_height : ∀ (c : Ctx κ) (t : T κ), c.length + t.height ≤ (plug c t).height := by
  intro c
  induction c with
  | nil => intro t; simp [plug]
  | cons f c ih =>
    intro t
    rw [plug]
    refine Nat.le_trans ?_ (ih _)
    cases f <;> simp only [Frame.fill, height_node, List.length_cons] <;> omega

/-- A new leaf at an empty place, and the loop upwards. -/
theorem attach_res {E : Env κ} {s : St κ} {c : Ctx κ} {t : T κ} {nn row k : Nat} {v : κ} (hr : Rep s (plug c (.node (leafD nn v row) .nil .nil)))
    (hw : AVL (plug c .nil) ∧ ∀ d ∈ (plug c .nil).nodes, NOk E d) (hv : v = E.key row) (hk : c.length < k) :
    ∃ t', Whole E (retraceAdd E k s nn) t' ∧ t'.ids = (plug c (.node (leafD nn v row) .nil .nil)).ids ∧
      elems t' = elemsC (preN c) ++ row :: elemsC (postN c) := by
  have h1 := avl_plug.1 hw.1
  have h2 := nok_plug.1 hw.2
  obtain ⟨t', q1, q2, q3⟩ := retraceAdd_res (E := E) c hk hr (by simp) (by simp [AVL, leafD]) (h0 := 0) (by simp) h1.2 (.inl rfl) (nok_plug.2 ⟨h2.1, by
    intro d hd
    simp only [nodes_node, nodes_nil, List.nil_append, List.mem_singleton] at hd
    subst hd
    exact ⟨by simp [leafD], by simp [leafD, CAP], by simp [leafD, hv], by simp [leafD, hv]⟩⟩)
  exact ⟨t', q1, q2, by rw [q3, elems_plug]; simp [leafD]⟩

theorem elemsC_append (a b : List (D κ)) : elemsC (a ++ b) = elemsC a ++ elemsC b := by simp [elemsC]
theorem elemsC_cons (d : D κ) (b : List (D κ)) : elemsC (d :: b) = d.vals ++ elemsC b := by simp [elemsC]

theorem take_insert_headD (l : List Nat) (i row : Nat) (hi : i ≤ l.length) (x : Nat) : (l.take i ++ row :: l.drop i).headD x = if i = 0 then row else l.headD x := by
  cases i with
  | zero => simp
  | succ i =>
    cases l with
    | nil => simp at hi
    | cons a l => simp

theorem take_insert_lastD (l : List Nat) (i row : Nat) (x : Nat) : (l.take i ++ row :: l.drop i).getLastD x = if i < l.length then l.getLastD x else row := by
  rw [getLastD_append (by simp), List.getLastD_cons]
  split_ifs with h
  · have hne : l.drop i ≠ [] := by simp; omega
    conv => rhs; rw [← List.take_append_drop i l, getLastD_append hne]
    rw [lastD_of_ne hne, lastD_of_ne hne x]
  · rw [List.drop_eq_nil_of_le (by omega)]; rfl

/-- The state after insertion into a node with room. -/
theorem add_room {E : Env κ} {P : κ → Prop} (O : Ord E P) {s : St κ} {c : Ctx κ} {d : D κ} {l r : T κ} {row : Nat} (hw : Whole E s (plug c (.node d l r)))
    (hs : Sorted E P (elems (plug c (.node d l r)))) (hp : P (E.key row)) (hlen : d.vals.length < CAP)
    (h1 : E.cmp (E.key row) d.mn ≠ .lt) (h2 : E.cmp (E.key row) d.mx ≠ .gt) (hpost : ∀ e ∈ r.nodes ++ postN c, E.cmp (E.key row) e.mn = .lt) (nn : Option Nat) :
    ∃ t', Whole E (if slotFirst E (E.key row) d.vals = 0 then
        (s.mod d.id (fun n => { n with vals := n.vals.take (slotFirst E (E.key row) d.vals) ++ row :: n.vals.drop (slotFirst E (E.key row) d.vals) })).mod d.id
          (fun n => { n with mn := E.key row })
      else s.mod d.id (fun n => { n with vals := n.vals.take (slotFirst E (E.key row) d.vals) ++ row :: n.vals.drop (slotFirst E (E.key row) d.vals) })) t' ∧
      Added E row nn (plug c (.node d l r)) t' := by
  have i0 := hw.rep.focus.2.1
  have hnodes : (plug c (T.node d l r)).nodes = (preN c ++ l.nodes) ++ d :: (r.nodes ++ postN c) := by simp [nodes_plug]
  have hel : elems (plug c (T.node d l r)) = elemsC ((preN c ++ l.nodes) ++ d :: (r.nodes ++ postN c)) := by rw [← hnodes]; rfl
  have hs' := hs
  rw [hel] at hs'
  have hok' := hw.nok
  rw [hnodes] at hok'
  obtain ⟨b1, b2, b3, b4, b5, b6⟩ := hs'.around O hok'
  have hd := hok' d (by simp)
  obtain ⟨f1, f2, f3⟩ := slotFirst_spec E (E.key row) d.vals
  have f2' : ∀ x ∈ d.vals.drop (slotFirst E (E.key row) d.vals), E.le (E.key row) (E.key x) := by
    intro x hx
    have hpx := (b3 x (List.mem_of_mem_drop hx)).2.2
    have hpw := b4
    rw [← List.take_append_drop (slotFirst E (E.key row) d.vals) d.vals, List.pairwise_append] at hpw
    have hpw := hpw.2.1
    cases hdr : d.vals.drop (slotFirst E (E.key row) d.vals) with
    | nil => rw [hdr] at hx; simp at hx
    | cons a m =>
      rw [hdr] at hx hpw f2
      have hpa := (b3 a (List.mem_of_mem_drop (by rw [hdr]; simp))).2.2
      have ha : E.le (E.key row) (E.key a) := (O.ge_iff hpa hp).1 (f2 a (by simp))
      rcases List.mem_cons.1 hx with rfl | hx
      · exact ha
      · exact O.trans hp hpa hpx ha ((List.pairwise_cons.1 hpw).1 x hx)
  have hlt : slotFirst E (E.key row) d.vals < d.vals.length ∨ E.le d.mx (E.key row) := by
    by_cases g : slotFirst E (E.key row) d.vals < d.vals.length
    · exact .inl g
    · right
      rw [List.take_of_length_le (by omega)] at f1
      rw [hd.mx]
      exact O.le_of_lt (f1 _ (last_mem hd.ne))
  generalize hi : slotFirst E (E.key row) d.vals = i at *
  have hst : (if i = 0 then
        (s.mod d.id (fun n => { n with vals := n.vals.take i ++ row :: n.vals.drop i })).mod d.id (fun n => { n with mn := E.key row })
      else s.mod d.id (fun n => { n with vals := n.vals.take i ++ row :: n.vals.drop i })) =
      s.mod d.id (fun n => { n with vals := n.vals.take i ++ row :: n.vals.drop i, mn := if i = 0 then E.key row else n.mn }) := by
    split_ifs with g
    · rw [St.mod_mod]
    · rfl
  rw [hst]
  have hmx : i < d.vals.length := by
    rcases hlt with h | h
    · exact h
    · -- the maximum is not less than the row
      by_contra hge
      rw [List.take_of_length_le (by omega)] at f1
      have := f1 _ (last_mem hd.ne)
      rw [← hd.mx] at this
      rw [O.lt_iff b6 hp] at this
      exact this (fun e => h2 e)
  let d' : D κ := { d with vals := d.vals.take i ++ row :: d.vals.drop i, mn := if i = 0 then E.key row else d.mn }
  refine ⟨plug c (.node d' l r), hw.modFocus (d' := d') _ ⟨rfl, rfl, rfl⟩ ⟨rfl, rfl⟩ ⟨i0.1, i0.2, i0.3, i0.4, i0.5, ?_, i0.7, ?_⟩ ⟨?_, ?_, ?_, ?_⟩, ⟨⟨?_⟩, ?_, ?_⟩⟩
  · simp only [d', i0.mn]
  · simp only [d', i0.vals]
  · simp [d']
  · simp only [d', List.length_append, List.length_cons, List.length_take, List.length_drop]; omega
  · simp only [d']
    rw [take_insert_headD _ _ _ f3]
    split_ifs
    · rfl
    · exact hd.mn
  · simp only [d']
    rw [take_insert_lastD, if_pos hmx]
    exact hd.mx
  · refine ⟨elemsC (preN c ++ l.nodes) ++ d.vals.take i, d.vals.drop i ++ elemsC (r.nodes ++ postN c), ?_, ?_, ?_, ?_⟩
    · rw [hel, elemsC_append, elemsC_cons]
      simp only [List.append_assoc]
      rw [← List.append_assoc (d.vals.take i), List.take_append_drop]
    · simp only [elems, nodes_plug, nodes_node, elemsC, List.flatMap_append, List.flatMap_cons, d']
      simp only [List.append_assoc, List.cons_append]
    · intro a ha
      rcases List.mem_append.1 ha with ha | ha
      · exact O.trans (b1 a ha).2 b5 hp (b1 a ha).1 ((O.ge_iff hp b5).1 h1)
      · exact O.le_of_lt (f1 a ha)
    · intro b hb
      rcases List.mem_append.1 hb with hb | hb
      · exact f2' b hb
      · exact O.trans hp b6 (b2 b hb).2 h2 (b2 b hb).1
  · intro i hi'
    left
    simpa [ids_plug, d'] using hi'
  · intro i hi'
    simpa [ids_plug, d'] using hi'

end WG.TTree
