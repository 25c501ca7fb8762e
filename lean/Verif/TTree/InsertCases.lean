import Verif.TTree.Insert
/-!
# Adding a row: the remaining cases
-/
namespace WG.TTree
variable {κ : Type}
open T

theorem Sorted.left {E : Env κ} {P : κ → Prop} {a b : List Nat} (h : Sorted E P (a ++ b)) : Sorted E P a :=
  ⟨(List.pairwise_append.1 h.pw).1, fun x hx => h.P x (by simp [hx])⟩
theorem Sorted.right {E : Env κ} {P : κ → Prop} {a b : List Nat} (h : Sorted E P (a ++ b)) : Sorted E P b :=
  ⟨(List.pairwise_append.1 h.pw).2.1, fun x hx => h.P x (by simp [hx])⟩

theorem before_le {E : Env κ} {P : κ → Prop} (O : Ord E P) {l : List (D κ)} {v : κ} (hv : P v) (hs : Sorted E P (elemsC l)) (hok : ∀ e ∈ l, NOk E e)
    (h : ∀ e ∈ l.getLast?, E.le e.mx v) : ∀ a ∈ elemsC l, E.le (E.key a) v := by
  intro a ha
  rcases List.eq_nil_or_concat l with e | ⟨q, b, e⟩
  · subst e; simp [elemsC] at ha
  · rw [List.concat_eq_append] at e
    subst e
    have hb : E.le b.mx v := h b (by simp)
    obtain ⟨b1, b2, b3, b4, b5, b6⟩ := hs.around O hok
    have hns := nsorted O hs hok
    rw [elemsC_append, elemsC_cons] at ha
    simp only [elemsC, List.flatMap_nil, List.append_nil, List.mem_append] at ha
    rcases ha with ha | ha
    · have := b1 a ha
      exact O.trans this.2 b5 hv this.1 (O.trans b5 b6 hv (hns.le b (by simp)) hb)
    · have := b3 a ha
      exact O.trans this.2.2 b6 hv this.2.1 hb

theorem after_ge {E : Env κ} {P : κ → Prop} (O : Ord E P) {l : List (D κ)} {v : κ} (hv : P v) (hs : Sorted E P (elemsC l)) (hok : ∀ e ∈ l, NOk E e)
    (h : ∀ e ∈ l.head?, E.le v e.mn) : ∀ a ∈ elemsC l, E.le v (E.key a) := by
  intro a ha
  cases l with
  | nil => simp [elemsC] at ha
  | cons b q =>
    have hb : E.le v b.mn := h b (by simp)
    obtain ⟨b1, b2, b3, b4, b5, b6⟩ := hs.around (pre := []) O hok
    have hns := nsorted O hs hok
    rw [elemsC_cons] at ha
    simp only [List.mem_append] at ha
    rcases ha with ha | ha
    · have := b3 a ha
      exact O.trans hv b5 this.2.2 hb this.1
    · have := b2 a ha
      exact O.trans hv b6 this.2 (O.trans hv b5 b6 hb (hns.le b (by simp))) this.1

/-- Insertion at the left dead end. -/
theorem add_deadLeft {E : Env κ} {P : κ → Prop} (O : Ord E P) {s : St κ} {c : Ctx κ} {d : D κ} {r : T κ} {row : Nat} (hw : Whole E s (plug c (.node d .nil r)))
    (hs : Sorted E P (elems (plug c (.node d .nil r)))) (hp : P (E.key row))
    (h1 : E.cmp (E.key row) d.mn = .lt) (h2 : ∀ e ∈ (preN c).getLast?, E.cmp (E.key row) e.mx = .gt) (nn : Option Nat) :
    (d.vals.length < CAP → ∃ t', Whole E (s.mod d.id (fun n => { n with vals := row :: n.vals, mn := E.key row })) t' ∧ Added E row nn (plug c (.node d .nil r)) t') ∧
    (∀ x k, nn = some x → x ≠ 0 → x ∉ (plug c (.node d .nil r)).ids → c.length + 1 < k →
      ∃ t', Whole E (retraceAdd E k (attachLeft (newLeaf s x d.id (E.key row) row) d.id x) x) t' ∧ Added E row nn (plug c (.node d .nil r)) t') := by
  have i0 := hw.rep.focus.2.1
  have hnodes : (plug c (T.node d .nil r)).nodes = preN c ++ d :: (r.nodes ++ postN c) := by simp [nodes_plug]
  have hel : elems (plug c (T.node d .nil r)) = elemsC (preN c ++ d :: (r.nodes ++ postN c)) := by rw [← hnodes]; rfl
  have hs' := hs
  rw [hel] at hs'
  have hok' := hw.nok
  rw [hnodes] at hok'
  obtain ⟨b1, b2, b3, b4, b5, b6⟩ := hs'.around O hok'
  have hd := hok' d (by simp)
  have hns := nsorted O hs' hok'
  have hA : ∀ a ∈ elemsC (preN c), E.le (E.key a) (E.key row) := by
    rw [elemsC_append] at hs'
    refine before_le O hp hs'.left (fun e he => hok' e (by simp [he])) ?_
    intro e he
    have hem : e ∈ preN c := List.mem_of_getLast? he
    have := h2 e he
    have hpe := hns.pmx e (by simp [hem])
    rw [O.gt_iff hp hpe] at this
    exact O.le_of_lt this
  have hB : ∀ b ∈ d.vals ++ elemsC (r.nodes ++ postN c), E.le (E.key row) (E.key b) := by
    intro b hb
    rcases List.mem_append.1 hb with hb | hb
    · exact O.trans hp b5 (b3 b hb).2.2 (O.le_of_lt h1) (b3 b hb).1
    · exact O.trans hp b6 (b2 b hb).2 (O.trans hp b5 b6 (O.le_of_lt h1) (hns.le d (by simp))) (b2 b hb).1
  have hold : elems (plug c (T.node d .nil r)) = elemsC (preN c) ++ (d.vals ++ elemsC (r.nodes ++ postN c)) := by
    rw [hel, elemsC_append, elemsC_cons]
  constructor
  · intro hlen
    let d' : D κ := { d with vals := row :: d.vals, mn := E.key row }
    refine ⟨plug c (.node d' .nil r), hw.modFocus (d' := d') _ ⟨rfl, rfl, rfl⟩ ⟨rfl, rfl⟩ ⟨i0.1, i0.2, i0.3, i0.4, i0.5, rfl, i0.7, ?_⟩ ⟨?_, ?_, ?_, ?_⟩, ⟨⟨?_⟩, ?_, ?_⟩⟩
    · simp only [d', i0.vals]
    · simp [d']
    · simp only [d', List.length_cons]; omega
    · simp [d']
    · simp only [d', List.getLastD_cons]
      rw [lastD_of_ne hd.ne]; exact hd.mx
    · refine ⟨_, _, hold, ?_, hA, hB⟩
      simp only [elems, nodes_plug, nodes_node, nodes_nil, elemsC, List.flatMap_append, List.flatMap_cons, List.nil_append, d', List.append_assoc, List.cons_append]
    · intro i hi'
      left
      simpa [ids_plug, d'] using hi'
    · intro i hi'
      simpa [ids_plug, d'] using hi'
  · intro x k hnn hx hfr hk
    have hrep := attachLeft_rep (v := E.key row) (row := row) hw.rep hx hfr
    obtain ⟨t', q1, q2, q3⟩ := attach_res (t := .nil) (c := .L d r :: c) hrep (E := E) ⟨hw.avl, hw.nok⟩ rfl (k := k) (by simpa using hk)
    refine ⟨t', q1, ⟨⟨_, _, hold, ?_, hA, hB⟩, ?_, ?_⟩⟩
    · rw [q3]
      simp only [preN, postN, elemsC, List.cons_append, List.flatMap_cons]
    · intro i hi
      rw [q2] at hi
      simp only [plug, Frame.fill, ids_plug, ids_node, ids_nil, leafD, List.mem_append, List.mem_cons, List.nil_append] at hi ⊢
      rw [hnn, Option.some.injEq]
      simp only [List.not_mem_nil, or_false] at hi
      rcases hi with (hi | hi | hi) | hi
      · exact .inl (.inl (.inl hi))
      · exact .inr hi.symm
      · exact .inl (.inl (.inr hi))
      · exact .inl (.inr hi)
    · intro i hi
      rw [q2]
      simp only [plug, Frame.fill, ids_plug, ids_node, ids_nil, leafD, List.mem_append, List.mem_cons, List.nil_append] at hi ⊢
      tauto

/-- Insertion at the right dead end. -/
theorem add_deadRight {E : Env κ} {P : κ → Prop} (O : Ord E P) {s : St κ} {c : Ctx κ} {d : D κ} {l : T κ} {row : Nat} (hw : Whole E s (plug c (.node d l .nil)))
    (hs : Sorted E P (elems (plug c (.node d l .nil)))) (hp : P (E.key row))
    (h1 : E.cmp (E.key row) d.mx = .gt) (h2 : ∀ e ∈ (postN c), E.cmp (E.key row) e.mn = .lt) (nn : Option Nat) :
    (d.vals.length < CAP → ∃ t', Whole E (s.mod d.id (fun n => { n with vals := n.vals ++ [row], mx := E.key row })) t' ∧ Added E row nn (plug c (.node d l .nil)) t') ∧
    (∀ x k, nn = some x → x ≠ 0 → x ∉ (plug c (.node d l .nil)).ids → c.length + 1 < k →
      ∃ t', Whole E (retraceAdd E k (attachRight (newLeaf s x d.id (E.key row) row) d.id x) x) t' ∧ Added E row nn (plug c (.node d l .nil)) t') := by
  have i0 := hw.rep.focus.2.1
  have hnodes : (plug c (T.node d l .nil)).nodes = (preN c ++ l.nodes) ++ d :: postN c := by simp [nodes_plug]
  have hel : elems (plug c (T.node d l .nil)) = elemsC ((preN c ++ l.nodes) ++ d :: postN c) := by rw [← hnodes]; rfl
  have hs' := hs
  rw [hel] at hs'
  have hok' := hw.nok
  rw [hnodes] at hok'
  obtain ⟨b1, b2, b3, b4, b5, b6⟩ := hs'.around O hok'
  have hd := hok' d (by simp)
  have hns := nsorted O hs' hok'
  have h1' : E.le d.mx (E.key row) := O.le_of_lt ((O.gt_iff hp b6).1 h1)
  have hA : ∀ a ∈ elemsC (preN c ++ l.nodes) ++ d.vals, E.le (E.key a) (E.key row) := by
    intro a ha
    rcases List.mem_append.1 ha with ha | ha
    · exact O.trans (b1 a ha).2 b5 hp (b1 a ha).1 (O.trans b5 b6 hp (hns.le d (by simp)) h1')
    · exact O.trans (b3 a ha).2.2 b6 hp (b3 a ha).2.1 h1'
  have hB : ∀ b ∈ elemsC (postN c), E.le (E.key row) (E.key b) := by
    rw [elemsC_append, elemsC_cons] at hs'
    refine after_ge O hp hs'.right.right (fun e he => hok' e (by simp [he])) ?_
    intro e he
    exact O.le_of_lt (h2 e (List.mem_of_head? he))
  have hold : elems (plug c (T.node d l .nil)) = (elemsC (preN c ++ l.nodes) ++ d.vals) ++ elemsC (postN c) := by
    rw [hel, elemsC_append, elemsC_cons, List.append_assoc]
  constructor
  · intro hlen
    let d' : D κ := { d with vals := d.vals ++ [row], mx := E.key row }
    refine ⟨plug c (.node d' l .nil), hw.modFocus (d' := d') _ ⟨rfl, rfl, rfl⟩ ⟨rfl, rfl⟩ ⟨i0.1, i0.2, i0.3, i0.4, i0.5, i0.6, rfl, ?_⟩ ⟨?_, ?_, ?_, ?_⟩, ⟨⟨?_⟩, ?_, ?_⟩⟩
    · simp only [d', i0.vals]
    · simp [d']
    · simp only [d', List.length_append, List.length_cons, List.length_nil]; omega
    · simp only [d']
      rw [headD_append hd.ne]; exact hd.mn
    · simp only [d']
      rw [getLastD_append (by simp)]; rfl
    · refine ⟨_, _, hold, ?_, hA, hB⟩
      simp only [elems, nodes_plug, nodes_node, nodes_nil, elemsC, List.flatMap_append, List.flatMap_cons, List.nil_append, d', List.append_assoc, List.cons_append]
    · intro i hi'
      left
      simpa [ids_plug, d'] using hi'
    · intro i hi'
      simpa [ids_plug, d'] using hi'
  · intro x k hnn hx hfr hk
    have hrep := attachRight_rep (v := E.key row) (row := row) hw.rep hx hfr
    obtain ⟨t', q1, q2, q3⟩ := attach_res (t := .nil) (c := .R d l :: c) hrep (E := E) ⟨hw.avl, hw.nok⟩ rfl (k := k) (by simpa using hk)
    refine ⟨t', q1, ⟨⟨_, _, hold, ?_, hA, hB⟩, ?_, ?_⟩⟩
    · rw [q3]
      simp [preN, postN, elemsC]
    · intro i hi
      rw [q2] at hi
      simp only [plug, Frame.fill, ids_plug, ids_node, ids_nil, leafD, List.mem_append, List.mem_cons, List.nil_append] at hi ⊢
      rw [hnn, Option.some.injEq]
      simp only [List.not_mem_nil, or_false] at hi ⊢
      rcases hi with (hi | hi | hi | hi) | hi
      · exact .inl (.inl (.inl hi))
      · exact .inl (.inl (.inr (.inl hi)))
      · exact .inl (.inl (.inr (.inr hi)))
      · exact .inr hi.symm
      · exact .inl (.inr hi)
    · intro i hi
      rw [q2]
      simp only [plug, Frame.fill, ids_plug, ids_node, ids_nil, leafD, List.mem_append, List.mem_cons, List.nil_append] at hi ⊢
      tauto

theorem getD_lt {l : List Nat} {j : Nat} (h : j < l.length) : l.getD j 0 = l[j] := by simp [List.getD, h]

theorem insertFull_eq {E : Env κ} {s : St κ} {node row i : Nat} {vals : List Nat} (hv : (s.h node).vals = vals) (hi : slotLast E (E.key row) vals (CAP - 1) = i) :
    insertFull E s node row = s.mod node (fun n => { n with
      vals := (vals.drop 1).take i ++ row :: vals.drop (i + 1)
      mn := if i = 0 then E.key row else E.key (((vals.drop 1).take i ++ row :: vals.drop (i + 1)).headD 0)
      mx := if i = CAP - 1 then E.key row else n.mx }) := by
  simp only [insertFull, hv, hi]
  by_cases g : i = 0
  · subst g
    simp only [if_true, CAP, St.mod_mod]; rfl
  · simp only [g, if_false]
    by_cases g2 : i = CAP - 1
    · simp only [g2, if_true, St.mod_mod]
    · simp only [g2, if_false, St.mod_mod]

/-- The bounding node is full: its minimum makes place for the row. -/
theorem insertFull_res {E : Env κ} {P : κ → Prop} (O : Ord E P) {s : St κ} {c : Ctx κ} {d : D κ} {l r : T κ} {row : Nat} (hw : Whole E s (plug c (.node d l r)))
    (hs : Sorted E P (elems (plug c (.node d l r)))) (hp : P (E.key row)) (hlen : d.vals.length = CAP)
    (h1 : E.cmp (E.key row) d.mn ≠ .lt) (h2 : E.cmp (E.key row) d.mx ≠ .gt) :
    ∃ d' : D κ, d'.id = d.id ∧ Whole E (insertFull E s d.id row) (plug c (.node d' l r)) ∧ d'.vals.length = CAP ∧
      Ins E row (elemsC (preN c ++ l.nodes) ++ d.vals ++ elemsC (r.nodes ++ postN c)) (elemsC (preN c ++ l.nodes) ++ d.vals.headD 0 :: d'.vals ++ elemsC (r.nodes ++ postN c)) ∧
      Ins E row (elemsC (preN c ++ l.nodes) ++ d.vals.drop 1 ++ elemsC (r.nodes ++ postN c)) (elemsC (preN c ++ l.nodes) ++ d'.vals ++ elemsC (r.nodes ++ postN c)) := by
  have i0 := hw.rep.focus.2.1
  have hnodes : (plug c (T.node d l r)).nodes = (preN c ++ l.nodes) ++ d :: (r.nodes ++ postN c) := by simp [nodes_plug]
  have hel : elems (plug c (T.node d l r)) = elemsC ((preN c ++ l.nodes) ++ d :: (r.nodes ++ postN c)) := by rw [← hnodes]; rfl
  have hs' := hs
  rw [hel] at hs'
  have hok' := hw.nok
  rw [hnodes] at hok'
  obtain ⟨b1, b2, b3, b4, b5, b6⟩ := hs'.around O hok'
  have hd := hok' d (by simp)
  obtain ⟨f1, f2, f3⟩ := slotLast_spec E (E.key row) d.vals (CAP - 1)
  rw [insertFull_eq i0.vals rfl]
  generalize hi : slotLast E (E.key row) d.vals (CAP - 1) = i at *
  have hc8 : CAP = 8 := rfl
  obtain ⟨a, m, hv⟩ : ∃ a m, d.vals = a :: m := by
    cases hv : d.vals with
    | nil => exact absurd hv hd.ne
    | cons a m => exact ⟨a, m, rfl⟩
  have hml : m.length = 7 := by rw [hv] at hlen; simp at hlen; omega
  have hget : ∀ j, j < 8 → d.vals.getD j 0 ∈ d.vals := by
    intro j hj
    rw [getD_lt (by omega)]
    exact List.getElem_mem _
  -- the elements up to slot i are not greater, the others are greater
  have hle : ∀ x ∈ d.vals.take (i + 1), E.le (E.key x) (E.key row) := by
    intro x hx
    obtain ⟨j, hj, rfl⟩ := List.getElem_of_mem hx
    simp only [List.length_take] at hj
    rw [List.getElem_take]
    have hxm : d.vals[j] ∈ d.vals := List.getElem_mem _
    rcases f2 with f2 | f2
    · have : j = 0 := by omega
      subst this
      have e : E.key d.vals[0] = d.mn := by rw [hd.mn]; simp [hv]
      rw [e]
      exact (O.ge_iff hp b5).1 h1
    · have f2' : E.le (E.key d.vals[i]) (E.key row) := by
        rw [getD_lt (by omega)] at f2; exact f2
      by_cases e : j = i
      · subst e; exact f2'
      · have := List.pairwise_iff_getElem.1 b4 j i (by omega) (by omega) (by omega)
        exact O.trans (b3 _ hxm).2.2 (b3 _ (List.getElem_mem _)).2.2 hp this f2'
  have hge : ∀ x ∈ d.vals.drop (i + 1), E.le (E.key row) (E.key x) := by
    intro x hx
    obtain ⟨j, hj, rfl⟩ := List.getElem_of_mem hx
    simp only [List.length_drop] at hj
    rw [List.getElem_drop]
    have := f3 (i + 1 + j) (by omega) (by omega)
    rw [getD_lt (by omega)] at this
    exact O.le_of_lt ((O.gt_iff (b3 _ (List.getElem_mem _)).2.2 hp).1 this)
  have htk : d.vals.take (i + 1) = d.vals.headD 0 :: (d.vals.drop 1).take i := by simp [hv]
  have hdr : d.vals.drop 1 = (d.vals.drop 1).take i ++ d.vals.drop (i + 1) := by simp [hv]
  have hall : d.vals = d.vals.take (i + 1) ++ d.vals.drop (i + 1) := (List.take_append_drop _ _).symm
  have hA : ∀ x ∈ elemsC (preN c ++ l.nodes), E.le (E.key x) (E.key row) := fun x ha =>
    O.trans (b1 x ha).2 b5 hp (b1 x ha).1 ((O.ge_iff hp b5).1 h1)
  have hB : ∀ x ∈ elemsC (r.nodes ++ postN c), E.le (E.key row) (E.key x) := fun x hb =>
    O.trans hp b6 (b2 x hb).2 h2 (b2 x hb).1
  let v' := (d.vals.drop 1).take i ++ row :: d.vals.drop (i + 1)
  have hv' : v' = (m.take i ++ row :: m.drop i) := by simp [v', hv]
  let d' : D κ := { d with vals := v', mn := if i = 0 then E.key row else E.key (v'.headD 0), mx := if i = CAP - 1 then E.key row else d.mx }
  refine ⟨d', rfl, hw.modFocus (d' := d') _ ⟨rfl, rfl, rfl⟩ ⟨rfl, rfl⟩ ⟨i0.1, i0.2, i0.3, i0.4, i0.5, rfl, ?_, rfl⟩ ⟨?_, ?_, ?_, ?_⟩, ?_, ?_, ?_⟩
  · simp only [d', i0.mx]
  · simp [d', v']
  · simp only [d', hv', List.length_append, List.length_cons, List.length_take, List.length_drop]; omega
  · simp only [d']
    split_ifs with g
    · rw [hv', g]; rfl
    · rfl
  · simp only [d']
    rw [hv', take_insert_lastD]
    split_ifs with g1 g2 g2
    · omega
    · rfl
    · rw [hd.mx, hv, List.getLastD_cons]
      rw [lastD_of_ne (by intro e; rw [e] at hml; simp at hml)]
    · omega
  · simp only [d', hv', List.length_append, List.length_cons, List.length_take, List.length_drop]; omega
  · refine ⟨elemsC (preN c ++ l.nodes) ++ d.vals.take (i + 1), d.vals.drop (i + 1) ++ elemsC (r.nodes ++ postN c), ?_, ?_, ?_, ?_⟩
    · conv => lhs; rw [hall]
      simp only [List.append_assoc]
    · simp only [d', v', htk, List.append_assoc, List.cons_append]
    · intro x hx
      rcases List.mem_append.1 hx with hx | hx
      · exact hA x hx
      · exact hle x hx
    · intro x hx
      rcases List.mem_append.1 hx with hx | hx
      · exact hge x hx
      · exact hB x hx
  · refine ⟨elemsC (preN c ++ l.nodes) ++ (d.vals.drop 1).take i, d.vals.drop (i + 1) ++ elemsC (r.nodes ++ postN c), ?_, ?_, ?_, ?_⟩
    · conv => lhs; rw [hdr]
      simp only [List.append_assoc]
    · simp only [d', v', List.append_assoc, List.cons_append]
    · intro x hx
      rcases List.mem_append.1 hx with hx | hx
      · exact hA x hx
      · exact hle x (by rw [htk]; exact List.mem_cons_of_mem _ hx)
    · intro x hx
      rcases List.mem_append.1 hx with hx | hx
      · exact hge x hx
      · exact hB x hx

end WG.TTree
