import Verif.TTree.Remove
/-!
# `ttree_remove_row`
-/
namespace WG.TTree
variable {κ : Type}
open T

theorem findIdx_split {row : Nat} : ∀ {l : List Nat} {i : Nat}, l.findIdx? (· == row) = some i → ∃ u w, l = u ++ row :: w ∧ i = u.length ∧ row ∉ u := by
  intro l
  induction l with
  | nil => intro i h; simp at h
  | cons a l ih =>
    intro i h
    rw [List.findIdx?_cons] at h
    by_cases g : a = row
    · subst g
      simp at h
      exact ⟨[], l, rfl, h.symm, by simp⟩
    · simp only [beq_iff_eq, g, if_false, Option.map_eq_some_iff] at h
      obtain ⟨j, hj, rfl⟩ := h
      obtain ⟨u, w, rfl, rfl, hu⟩ := ih hj
      exact ⟨a :: u, w, rfl, rfl, by simp [hu, Ne.symm g]⟩

theorem findIdx_none {row : Nat} {l : List Nat} (h : l.findIdx? (· == row) = none) : row ∉ l := by
  intro hm
  rw [List.findIdx?_eq_none_iff] at h
  simpa using h row hm

/-- Rows from a node on are not less than its minimum. -/
theorem from_mn {E : Env κ} {P : κ → Prop} (O : Ord E P) {pre post : List (D κ)} {b : D κ} (hs : Sorted E P (elemsC (pre ++ b :: post))) (hok : ∀ e ∈ pre ++ b :: post, NOk E e)
    {x : Nat} (hx : x ∈ elemsC (b :: post)) : E.le b.mn (E.key x) ∧ P b.mn ∧ P (E.key x) := by
  obtain ⟨b1, b2, b3, b4, b5, b6⟩ := hs.around O hok
  have hns := nsorted O hs hok
  rw [elemsC_cons, List.mem_append] at hx
  rcases hx with hx | hx
  · exact ⟨(b3 x hx).1, b5, (b3 x hx).2.2⟩
  · exact ⟨O.trans b5 b6 (b2 x hx).2 (hns.le b (by simp)) (b2 x hx).1, b5, (b2 x hx).2⟩

theorem to_mx {E : Env κ} {P : κ → Prop} (O : Ord E P) {pre post : List (D κ)} {b : D κ} (hs : Sorted E P (elemsC (pre ++ b :: post))) (hok : ∀ e ∈ pre ++ b :: post, NOk E e)
    {x : Nat} (hx : x ∈ b.vals) : E.le (E.key x) b.mx ∧ P b.mx ∧ P (E.key x) := by
  obtain ⟨b1, b2, b3, b4, b5, b6⟩ := hs.around O hok
  exact ⟨(b3 x hx).2.1, b6, (b3 x hx).2.2⟩

theorem findRow_res {E : Env κ} {P : κ → Prop} (O : Ord E P) {s : St κ} {t : T κ} {row : Nat} (hw : Whole E s t) (hs : Sorted E P (elems t)) (hp : P (E.key row)) :
    ∀ (post pre : List (D κ)) (d : D κ) (k : Nat), t.nodes = pre ++ d :: post → post.length < k →
    match findRow E s (E.key row) row k d.id with
    | some (n, i) => ∃ mid d1 post1, t.nodes = (pre ++ mid) ++ d1 :: post1 ∧ n = d1.id ∧ d1.vals.findIdx? (· == row) = some i ∧ row ∉ elemsC mid
    | none => row ∉ elemsC (d :: post) := by
  intro post
  induction post with
  | nil =>
    intro pre d k e hk
    cases k with
    | zero => simp at hk
    | succ k =>
      obtain ⟨_, _, _, i0⟩ := hw.rep.get (d := d) (by simp [e])
      have hsucc : (s.h d.id).succ = 0 := (hw.rep.links e).2
      rw [findRow]
      simp only [i0.vals]
      cases hf : d.vals.findIdx? (· == row) with
      | some i => exact ⟨[], d, [], by simpa using e, rfl, hf, by simp [elemsC]⟩
      | none =>
        simp only [hsucc, if_true]
        simpa [elemsC] using findIdx_none hf
  | cons b q ih =>
    intro pre d k e hk
    cases k with
    | zero => simp at hk
    | succ k =>
      obtain ⟨_, _, _, i0⟩ := hw.rep.get (d := d) (by simp [e])
      obtain ⟨_, _, _, ib⟩ := hw.rep.get (d := b) (by simp [e])
      have hsucc : (s.h d.id).succ = b.id := (hw.rep.links e).2
      have hb0 : b.id ≠ 0 := fun x => hw.rep.pos (List.mem_map.2 ⟨b, by simp [e], x⟩)
      rw [findRow]
      simp only [i0.vals]
      cases hf : d.vals.findIdx? (· == row) with
      | some i => exact ⟨[], d, b :: q, by simpa using e, rfl, hf, by simp [elemsC]⟩
      | none =>
        have hrd := findIdx_none hf
        simp only [hsucc, hb0, if_false, ib.mn]
        have e' : t.nodes = (pre ++ [d]) ++ b :: q := by simp [e]
        by_cases g : E.cmp b.mn (E.key row) = .gt
        · rw [if_pos g]
          rw [elemsC_cons, List.mem_append]
          rintro (h | h)
          · exact hrd h
          · have hs' : Sorted E P (elemsC ((pre ++ [d]) ++ b :: q)) := by rw [← e']; exact hs
            have hok : ∀ x ∈ (pre ++ [d]) ++ b :: q, NOk E x := by rw [← e']; exact hw.nok
            exact (from_mn O hs' hok h).1 g
        · rw [if_neg g]
          have := ih (pre ++ [d]) b k e' (by simp at hk; omega)
          revert this
          cases findRow E s (E.key row) row k b.id with
          | none =>
            intro h
            rw [elemsC_cons, List.mem_append]
            rintro (h' | h')
            · exact hrd h'
            · exact h h'
          | some x =>
            obtain ⟨n, i⟩ := x
            rintro ⟨mid, d1, post1, h1, h2, h3, h4⟩
            refine ⟨d :: mid, d1, post1, by simpa using h1, h2, h3, ?_⟩
            rw [elemsC_cons, List.mem_append]
            rintro (h' | h')
            · exact hrd h'
            · exact h4 h'

/-- Removal of one slot. -/
theorem removeSlot_res {E : Env κ} {s : St κ} {c : Ctx κ} {d : D κ} {l r : T κ} {u w : List Nat} {row : Nat} (hr : Rep s (plug c (.node d l r)))
    (hv : d.vals = u ++ row :: w) (hok : NOk E d) :
    ∃ d' : D κ, d'.id = d.id ∧ d'.lh = d.lh ∧ d'.rh = d.rh ∧ d'.vals = u ++ w ∧ Rep (removeSlot E s d.id u.length) (plug c (.node d' l r)) ∧ (u ++ w ≠ [] → NOk E d') := by
  have i0 := hr.focus.2.1
  have he : (u ++ row :: w).eraseIdx u.length = u ++ w := by
    rw [List.eraseIdx_append_of_length_le (Nat.le_refl _)]; simp
  let d' : D κ := { d with
    vals := u ++ w
    mx := if u.length = (u ++ w).length ∧ (u ++ w).length ≠ 0 then E.key ((u ++ w).getLastD 0) else d.mx
    mn := if ¬ (u.length = (u ++ w).length ∧ (u ++ w).length ≠ 0) ∧ u.length = 0 ∧ (u ++ w).length ≠ 0 then E.key ((u ++ w).headD 0) else d.mn }
  have heq : removeSlot E s d.id u.length = s.mod d.id (fun n => { n with vals := d'.vals, mn := d'.mn, mx := d'.mx }) := by
    have h1 : ((s.mod d.id (fun n => { n with vals := n.vals.eraseIdx u.length })).h d.id).vals = u ++ w := by
      rw [St.mod_self]; simp only [i0.vals, hv, he]
    have h0 : ∀ m x : κ, s.h d.id = { s.h d.id with mn := d.mn, mx := d.mx } := by
      intro m x; rw [← i0.mn, ← i0.mx]
    unfold removeSlot
    simp only [h1, d']
    have hvals : (s.h d.id).vals.eraseIdx u.length = u ++ w := by rw [i0.vals, hv, he]
    have aux : ∀ f g : Nd κ → Nd κ, f (s.h d.id) = g (s.h d.id) → s.mod d.id f = s.mod d.id g := by
      intro f g h; unfold St.mod; congr 1; funext j; by_cases x : j = d.id <;> simp [x, h]
    by_cases g1 : u.length = (u ++ w).length ∧ (u ++ w).length ≠ 0
    · simp only [if_pos g1, St.mod_mod]
      refine aux _ _ ?_
      rw [if_neg (fun h => h.1 g1), hvals, ← i0.mn]
    · simp only [if_neg g1]
      by_cases g2 : u.length = 0 ∧ (u ++ w).length ≠ 0
      · simp only [if_pos g2, St.mod_mod]
        refine aux _ _ ?_
        rw [if_pos ⟨g1, g2⟩, hvals, ← i0.mx]
      · simp only [if_neg g2]
        refine aux _ _ ?_
        simp only [g2, and_false, if_false, hvals, ← i0.mx, ← i0.mn]
  refine ⟨d', rfl, rfl, rfl, rfl, ?_, ?_⟩
  · rw [heq]
    exact hr.modFocus _ rfl ⟨rfl, rfl⟩ ⟨i0.1, i0.2, i0.3, i0.4, i0.5, rfl, rfl, rfl⟩
  · intro hne
    have hl : (u ++ w).length ≠ 0 := fun e => hne (List.length_eq_zero_iff.1 e)
    refine ⟨hne, ?_, ?_, ?_⟩
    · have := hok.cap
      rw [hv] at this
      simp only [List.length_append, List.length_cons, d'] at this ⊢
      omega
    · simp only [d']
      have h1 := hok.mn
      rw [hv] at h1
      cases u with
      | nil =>
        cases w with
        | nil => exact absurd rfl hne
        | cons b w => simp
      | cons a u => simpa using h1
    · simp only [d']
      have h1 := hok.mx
      rw [hv] at h1
      cases w with
      | nil => rw [if_pos ⟨by simp, hl⟩]
      | cons b w =>
        rw [if_neg (by simp)]
        rw [getLastD_append (by simp), List.getLastD_cons] at h1
        rw [getLastD_append (by simp)]
        rw [h1]
        simp only [List.getLastD_cons]

/-- Borrowing from the greatest lower bound. -/
theorem borrow_res {E : Env κ} {s : St κ} {c c1 : Ctx κ} {d g : D κ} {r gl : T κ} (hr : Rep s (plug (c1 ++ .L d r :: c) (.node g gl .nil))) (hg : NOk E g) (hlen : d.vals.length < 5)
    (hd : d.vals ≠ [] → NOk E d) :
    ∃ d' g' : D κ, d'.id = d.id ∧ d'.lh = d.lh ∧ d'.rh = d.rh ∧ g'.id = g.id ∧ g'.lh = g.lh ∧ g'.rh = g.rh ∧ d'.vals = g.vals.getLastD 0 :: d.vals ∧ g'.vals = g.vals.dropLast ∧
      Rep (borrow E s d.id g.id) (plug (c1 ++ .L d' r :: c) (.node g' gl .nil)) ∧ NOk E d' ∧ (g'.vals ≠ [] → NOk E g') := by
  have ig := hr.focus.2.1
  have hT : plug (c1 ++ .L d r :: c) (.node g gl .nil) = plug c (.node d (plug c1 (.node g gl .nil)) r) := by rw [plug_append]; rfl
  have hr1 := hr
  rw [hT] at hr1
  have i0 := hr1.focus.2.1
  have hgd : g.id ≠ d.id := by
    intro e
    have := hr1.nodup3.1
    simp only [ids_node, List.nodup_append] at this
    exact this.2.2 g.id (by simp [ids_plug]) d.id (by simp) e
  let d' : D κ := { d with vals := g.vals.getLastD 0 :: d.vals, mn := g.mx, mx := if d.vals = [] then g.mx else d.mx }
  let g' : D κ := { g with vals := g.vals.dropLast, mx := if g.vals.dropLast ≠ [] then E.key (g.vals.dropLast.getLastD 0) else g.mx }
  let f1 : Nd κ → Nd κ := fun n => { n with vals := d'.vals, mn := d'.mn, mx := d'.mx }
  let f2 : Nd κ → Nd κ := fun n => { n with vals := g'.vals, mx := g'.mx }
  have aux : ∀ (s : St κ) (i : Nat) (f g : Nd κ → Nd κ), f (s.h i) = g (s.h i) → s.mod i f = s.mod i g := by
    intro s i f g h; unfold St.mod; congr 1; funext j; by_cases x : j = i <;> simp [x, h]
  have heq : borrow E s d.id g.id = (s.mod d.id f1).mod g.id f2 := by
    unfold borrow
    have hA : (if ((s.mod d.id (fun n => { n with vals := g.vals.getLastD 0 :: n.vals, mn := g.mx })).h d.id).vals.length = 1 then
        (s.mod d.id (fun n => { n with vals := g.vals.getLastD 0 :: n.vals, mn := g.mx })).mod d.id (fun n => { n with mx := g.mx })
        else s.mod d.id (fun n => { n with vals := g.vals.getLastD 0 :: n.vals, mn := g.mx })) = s.mod d.id f1 := by
      rw [St.mod_self]
      simp only [i0.vals, List.length_cons]
      by_cases x : d.vals = []
      · simp only [x, List.length_nil, if_true, St.mod_mod]
        refine aux _ _ _ _ ?_
        simp [f1, d', i0.vals, x]
      · have : ¬ (d.vals.length + 1 = 1) := by simp [x]
        rw [if_neg this]
        refine aux _ _ _ _ ?_
        simp only [f1, d', i0.vals, x, if_false, ← i0.mx]
    simp only [ig.vals, ig.mx, hA]
    by_cases x : g.vals.dropLast = []
    · simp only [x, List.length_nil, ne_eq, not_true_eq_false, if_false]
      refine aux _ _ _ _ ?_
      rw [St.mod_ne _ _ hgd]
      simp only [f2, g', x, ne_eq, not_true_eq_false, if_false, ← ig.mx]
    · have : g.vals.dropLast.length ≠ 0 := fun e => x (List.length_eq_zero_iff.1 e)
      simp only [ne_eq, this, not_false_eq_true, if_true, St.mod_mod]
      refine aux _ _ _ _ ?_
      simp only [f2, g', ne_eq, x, not_false_eq_true, if_true]
  refine ⟨d', g', rfl, rfl, rfl, rfl, rfl, rfl, rfl, rfl, ?_, ?_, ?_⟩
  · rw [heq]
    have q1 : Rep (s.mod d.id f1) (plug c (.node d' (plug c1 (.node g gl .nil)) r)) :=
      hr1.modFocus f1 rfl ⟨rfl, rfl⟩ ⟨i0.1, i0.2, i0.3, i0.4, i0.5, rfl, rfl, rfl⟩
    have hT' : plug c (.node d' (plug c1 (.node g gl .nil)) r) = plug (c1 ++ .L d' r :: c) (.node g gl .nil) := by rw [plug_append]; rfl
    rw [hT'] at q1
    have ig' := q1.focus.2.1
    exact q1.modFocus f2 rfl ⟨rfl, rfl⟩ ⟨ig'.1, ig'.2, ig'.3, ig'.4, ig'.5, ig'.6, rfl, rfl⟩
  · refine ⟨by simp [d'], ?_, ?_, ?_⟩
    · simp only [d', List.length_cons, CAP]; omega
    · simp only [d', List.headD_cons]; exact hg.mx
    · simp only [d', List.getLastD_cons]
      by_cases x : d.vals = []
      · rw [if_pos x, x]; exact hg.mx
      · rw [if_neg x, lastD_of_ne x]; exact (hd x).mx
  · intro hne
    simp only [g'] at hne
    refine ⟨hne, ?_, ?_, ?_⟩
    · have := hg.cap
      simp only [g', List.length_dropLast]; omega
    · simp only [g']
      rw [hg.mn]
      cases hv : g.vals with
      | nil => exact absurd hv hg.ne
      | cons a m =>
        cases m with
        | nil => rw [hv] at hne; simp at hne
        | cons b m => simp
    · simp only [g']
      rw [if_pos hne]

/-- What `ttree_remove_row` does to a non-empty index. -/
structure Removed (E : Env κ) (s : St κ) (row : Nat) (t : T κ) (x : St κ × List Nat × Int) : Prop where
  present : row ∈ elems t → x.2.2 = 0 ∧
    (((elems t).erase row = [] ∧ Empty E x.1 ∧ x.2.1 = [] ∧ t.ids = [s.root] ∧ x.1.root = s.root) ∨
      ∃ t', Whole E x.1 t' ∧ t' ≠ .nil ∧ elems t' = (elems t).erase row ∧ (x.2.1 ++ t'.ids).Perm t.ids)
  absent : row ∉ elems t → (x.2.2 = -2 ∨ x.2.2 = -3) ∧ x.1 = s ∧ x.2.1 = []

theorem dropLast_last {l : List Nat} (h : l ≠ []) : l.dropLast ++ [l.getLastD 0] = l := by
  have := List.dropLast_concat_getLast h
  rw [List.getLastD_eq_getLast?, List.getLast?_eq_some_getLast h]
  exact this

theorem avl_data {c : Ctx κ} {d d' : D κ} {l r : T κ} (h : AVL (plug c (.node d l r))) (h1 : d'.lh = d.lh) (h2 : d'.rh = d.rh) : AVL (plug c (.node d' l r)) := by
  rw [avl_plug] at h ⊢
  exact ⟨⟨h1.trans h.1.1, h2.trans h.1.2.1, h.1.2.2⟩, h.2⟩

theorem removeRow_res {E : Env κ} {P : κ → Prop} (O : Ord E P) {s : St κ} {t : T κ} {row : Nat} (hw : Whole E s t) (hne : t ≠ .nil)
    (hs : Sorted E P (elems t)) (hp : P (E.key row)) {k : Nat} (hk : 2 * t.height + t.nodes.length < k) : Removed E s row t (removeRow E k s row) := by
  have hns : NSorted E P t.nodes := nsorted O hs hw.nok
  have hsl := searchLeft_res O hp t [] k (by omega) hne hw.rep hns (by simp [preN]) (by simp [postN])
  have hroot : s.root = t.rid := hw.rep.root
  have hr0 : s.root ≠ 0 := by
    rw [hroot]; intro e; exact hw.rep.pos (e ▸ rid_mem hne)
  rw [show headId (postN ([] : Ctx κ)) = 0 from rfl, ← hroot] at hsl
  unfold removeRow
  rw [if_neg hr0]
  generalize hx : searchLeft E s (E.key row) k s.root 0 = x at hsl
  obtain ⟨node, bt⟩ := x
  obtain ⟨pre, d, post, hnodes, hid, hpre, hb⟩ := hsl
  simp only [plug] at hnodes
  simp only at hid
  subst hid
  have hs' : Sorted E P (elemsC (pre ++ d :: post)) := by rw [← hnodes]; exact hs
  have hok' : ∀ e ∈ pre ++ d :: post, NOk E e := by rw [← hnodes]; exact hw.nok
  have helt : elems t = elemsC pre ++ elemsC (d :: post) := by unfold elems; rw [hnodes]; simp [elemsC]
  -- the row is not in the nodes before
  have hnpre : row ∉ elemsC pre := by
    intro h
    obtain ⟨e, he, hm⟩ := List.mem_flatMap.1 h
    obtain ⟨p1, p2, rfl⟩ := List.append_of_mem he
    have h2 : Sorted E P (elemsC (p1 ++ e :: (p2 ++ d :: post))) := by simpa using hs'
    exact (to_mx O h2 (by simpa using hok') hm).1 (hpre e (by simp))
  cases bt with
  | deadLeft =>
    simp only [hx]
    refine ⟨fun h => ?_, fun _ => ⟨.inl rfl, rfl, rfl⟩⟩
    exfalso
    rw [helt, List.mem_append] at h
    rcases h with h | h
    · exact hnpre h
    · obtain ⟨q1, q2, q3⟩ := from_mn O hs' hok' h
      exact (O.lt_iff q3 q2).1 hb.1 q1
  | deadRight =>
    simp only [hx]
    refine ⟨fun h => ?_, fun _ => ⟨.inl rfl, rfl, rfl⟩⟩
    exfalso
    rw [helt, List.mem_append, elemsC_cons, List.mem_append] at h
    rcases h with h | h | h
    · exact hnpre h
    · exact (to_mx O hs' hok' h).1 hb.1
    · cases post with
      | nil => simp [elemsC] at h
      | cons b q =>
        have h2 : Sorted E P (elemsC ((pre ++ [d]) ++ b :: q)) := by simpa using hs'
        obtain ⟨q1, q2, q3⟩ := from_mn O h2 (by simpa using hok') h
        exact (O.lt_iff q3 q2).1 (hb.2.1 b (by simp)) q1
  | really =>
    have hfr := findRow_res O hw hs hp post pre d k hnodes (by rw [hnodes] at hk; simp at hk; omega)
    simp only [hx]
    cases hf : findRow E s (E.key row) row k d.id with
    | none =>
      rw [hf] at hfr
      refine ⟨fun h => ?_, fun _ => ⟨.inr rfl, rfl, rfl⟩⟩
      exfalso
      rw [helt, List.mem_append] at h
      rcases h with h | h
      · exact hnpre h
      · exact hfr h
    | some y =>
      obtain ⟨n, i⟩ := y
      rw [hf] at hfr
      obtain ⟨mid, d1, post1, hn1, rfl, hidx, hnmid⟩ := hfr
      obtain ⟨u, w, hv, rfl, hnu⟩ := findIdx_split hidx
      obtain ⟨c, l, r, rfl, hprec, hpostc⟩ := zipper_at t hn1
      simp only
      have hd1 := hw.nok d1 (by rw [hn1]; simp)
      have helt2 : elems (plug c (T.node d1 l r)) = (elemsC (pre ++ mid) ++ u) ++ row :: (w ++ elemsC post1) := by
        unfold elems; rw [hn1]; simp [elemsC, hv]
      have hnA : row ∉ elemsC (pre ++ mid) ++ u := by
        rw [elemsC_append]
        simp only [List.mem_append, not_or]
        exact ⟨⟨hnpre, hnmid⟩, hnu⟩
      have herase : (elems (plug c (T.node d1 l r))).erase row = (elemsC (pre ++ mid) ++ u) ++ (w ++ elemsC post1) := by
        rw [helt2, List.erase_append_right _ hnA, List.erase_cons_head]
      have hmem : row ∈ elems (plug c (T.node d1 l r)) := by rw [helt2]; simp
      refine ⟨fun _ => ?_, fun h => absurd hmem h⟩
      -- the slot
      obtain ⟨d', e1, e2, e3, e4, e5, e6⟩ := removeSlot_res hw.rep hv hd1
      have hokall := nok_plug.1 hw.nok
      have i1 := e5.focus.2.1
      rw [e1] at i1
      generalize hs1 : removeSlot E s d1.id u.length = s1 at *
      have hlink := e5.links (pre := preN c ++ l.nodes) (d := d') (post := r.nodes ++ postN c) (by simp [nodes_plug])
      rw [e1] at hlink
      have hel1 : elems (plug c (T.node d' l r)) = (elems (plug c (T.node d1 l r))).erase row := by
        rw [herase, hprec]
        unfold elems
        rw [nodes_plug, hpostc]
        simp [elemsC, e4]
      have hroots : s1.root = s.root := by
        rw [e5.root, hroot]
        have : ∀ (c : Ctx κ) (t t' : T κ), t.rid = t'.rid → (plug c t).rid = (plug c t').rid := by
          intro c
          induction c with
          | nil => intro t t' h; exact h
          | cons f c ih => intro t t' h; exact ih _ _ (by cases f <;> rfl)
        exact this c _ _ e1
      have hids1 : (plug c (T.node d' l r)).ids = (plug c (T.node d1 l r)).ids := by simp [ids_plug, e1]
      have havl1 : AVL (plug c (T.node d' l r)) := avl_data hw.avl e2 e3
      have hokl : ∀ e ∈ l.nodes, NOk E e := fun e he => hokall.2 e (by simp [he])
      have hokr : ∀ e ∈ r.nodes, NOk E e := fun e he => hokall.2 e (by simp [he])
      have hcl := length_le_height c (T.node d1 l r)
      have conv : ∀ {T0 : T κ} {s0 : St κ} {x : St κ × List Nat × Int}, Settled E s0 T0 x → s0.root = s.root → elems T0 = (elems (plug c (T.node d1 l r))).erase row →
          T0.ids = (plug c (T.node d1 l r)).ids → x.2.2 = 0 ∧
          (((elems (plug c (T.node d1 l r))).erase row = [] ∧ Empty E x.1 ∧ x.2.1 = [] ∧ (plug c (T.node d1 l r)).ids = [s.root] ∧ x.1.root = s.root) ∨
            ∃ t', Whole E x.1 t' ∧ t' ≠ .nil ∧ elems t' = (elems (plug c (T.node d1 l r))).erase row ∧ (x.2.1 ++ t'.ids).Perm (plug c (T.node d1 l r)).ids) := by
        intro T0 s0 x h1 h2 h3 h4
        refine ⟨h1.code, ?_⟩
        rw [← h3, ← h4, ← h2]
        exact h1.res
      by_cases hbor : (s1.h d1.id).vals.length < 5 ∧ (s1.h d1.id).left ≠ 0 ∧ (s1.h d1.id).right ≠ 0
      · simp only [if_pos hbor]
        rw [i1.vals, i1.left, i1.right] at hbor
        have hlne : l ≠ .nil := by rintro rfl; exact hbor.2.1 rfl
        obtain ⟨q, g, hq⟩ : ∃ q g, l.nodes = q ++ [g] := by
          rcases List.eq_nil_or_concat l.nodes with e | ⟨q, g, e⟩
          · exact absurd (nodes_eq_nil.1 e) hlne
          · exact ⟨q, g, by rw [e, List.concat_eq_append]⟩
        obtain ⟨c1, gl, gr, hle, hgpre, hgpo⟩ := zipper_at l hq
        have hgpo' := hgpo.symm
        rw [List.append_eq_nil_iff, nodes_eq_nil] at hgpo'
        obtain ⟨hgr, hpo2⟩ := hgpo'
        subst hgr
        have hT : plug c (T.node d' l r) = plug (c1 ++ .L d' r :: c) (.node g gl .nil) := by rw [plug_append, ← hle]; rfl
        have hC : (c1 ++ Frame.L d' r :: c).length + 1 ≤ (plug c (T.node d1 l r)).height := by
          have a1 := length_le_height (c1 ++ .L d1 r :: c) (T.node g gl .nil)
          have a2 : plug (c1 ++ .L d1 r :: c) (.node g gl .nil) = plug c (T.node d1 l r) := by rw [plug_append, ← hle]; rfl
          rw [a2] at a1
          simp only [List.length_append, List.length_cons, height_node, height_nil] at a1 ⊢
          omega
        have hgl : (s1.h d1.id).pred = g.id := by
          rw [hlink.1, hq, ← List.append_assoc, lastId_concat]
        rw [hgl]
        have hrg := e5
        rw [hT] at hrg
        have hgok : NOk E g := hokl g (by simp [hq])
        obtain ⟨d2, g2, f1, f2, f3, f4, f5, f6, f7, f8, f9, f10, f11⟩ := borrow_res hrg hgok hbor.1 (by rw [e4]; exact e6)
        rw [e1] at f9 f1
        -- the tree after borrowing
        have hT2 : plug (c1 ++ .L d2 r :: c) (.node g2 gl .nil) = plug c (.node d2 (plug c1 (.node g2 gl .nil)) r) := by rw [plug_append]; rfl
        have havl2 : AVL (plug (c1 ++ .L d2 r :: c) (.node g2 gl .nil)) := by
          have h1 : AVL (plug (c1 ++ .L d' r :: c) (.node g2 gl .nil)) := avl_data (by rw [← hT]; exact havl1) f5 f6
          have h2 : plug (c1 ++ .L d' r :: c) (.node g2 gl .nil) = plug c (.node d' (plug c1 (.node g2 gl .nil)) r) := by rw [plug_append]; rfl
          rw [h2] at h1
          rw [hT2]
          exact avl_data h1 f2 f3
        have hokl2 := hokl
        rw [hle] at hokl2
        have hokl2 := nok_plug.1 hokl2
        have hset := settle_res (E := E) (k := k) f9 havl2 (by
            intro e he
            rw [preN_append, postN_append] at he
            simp only [preN, postN, List.mem_append, List.mem_cons, List.cons_append] at he
            rcases he with (he | he) | he | rfl | he | he
            · exact hokall.1 e (by simp [he])
            · exact hokl2.1 e (by simp [he])
            · exact hokl2.1 e (by simp [he])
            · exact f10
            · exact hokr e he
            · exact hokall.1 e (by simp [he])) (fun e he => hokl2.2 e (by simp [he])) (by simp) f11 (fun _ h => absurd rfl h) (by simp only [List.length_append, List.length_cons] at hC ⊢; omega)
        rw [f4] at hset
        refine conv hset ?_ ?_ ?_
        · show (borrow E s1 d1.id g.id).root = s.root
          rw [← hroots]
          unfold borrow
          simp only
          split_ifs <;> rfl
        · rw [← hel1, hT, elems_plug, elems_plug, preN_append, preN_append, postN_append, postN_append, hpo2]
          simp only [preN, postN, elems_node, elems_nil, List.append_nil, List.nil_append, elemsC, List.cons_append, List.flatMap_cons, f7, f8, List.append_assoc]
          conv => rhs; rw [← dropLast_last hgok.ne]
          simp only [List.append_assoc, List.singleton_append, List.cons_append, List.nil_append]
        · rw [← hids1, hT, ids_plug, ids_plug, preN_append, preN_append, postN_append, postN_append]
          simp [preN, postN, f1, f4, e1]
      · simp only [if_neg hbor]
        rw [i1.vals, i1.left, i1.right] at hbor
        have hset := settle_res (E := E) (k := k) e5 havl1 hokall.1 hokl hokr (by rw [e4]; exact e6) (by
          intro h1 h2 h3
          refine hbor ⟨by rw [h3]; simp, ?_, ?_⟩
          · exact fun e => h1 ((rid_zero (c := .L d' r :: c) e5).1 e)
          · exact fun e => h2 ((rid_zero (c := .R d' l :: c) e5).1 e)) (by simp only [height_node] at hcl; omega)
        rw [e1] at hset
        exact conv hset hroots hel1 hids1

end WG.TTree
