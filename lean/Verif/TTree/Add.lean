import Verif.TTree.InsertCases
/-!
# `ttree_add_row`
-/
namespace WG.TTree
variable {κ : Type}
open T

theorem nodes_eq_nil {t : T κ} : t.nodes = [] ↔ t = .nil := by
  cases t <;> simp

/-- After a failed allocation: the row has taken the place of another one. -/
def Lost (E : Env κ) (row : Nat) (t t' : T κ) : Prop :=
  ∃ A m B, elems t = A ++ m :: B ∧ Ins E row (A ++ B) (elems t') ∧ t'.ids = t.ids

theorem retraceFuel {k n h : Nat} (h1 : n ≤ h) (hk : h + 1 < k) : n + 1 < k := by omega

/-- The full bounding node. -/
theorem add_full {E : Env κ} {P : κ → Prop} (O : Ord E P) {s : St κ} {c : Ctx κ} {d : D κ} {l r : T κ} {row : Nat} (hw : Whole E s (plug c (.node d l r)))
    (hs : Sorted E P (elems (plug c (.node d l r)))) (hp : P (E.key row)) (hlen : d.vals.length = CAP)
    (h1 : E.cmp (E.key row) d.mn ≠ .lt) (h2 : E.cmp (E.key row) d.mx ≠ .gt) (nn : Option Nat) (hnn : ∀ x, nn = some x → x ≠ 0 ∧ x ∉ (plug c (.node d l r)).ids)
    {k : Nat} (hk : (plug c (.node d l r)).height + 1 < k) (f : St κ × Int)
    (hf : f = (let s := insertFull E s d.id row
        let glb := if (s.h d.id).left ≠ 0 then (s.h d.id).pred else d.id
        if (s.h glb).vals.length < CAP then
          (s.mod glb (fun n => { n with vals := n.vals ++ [d.vals.headD 0], mx := d.mn }), 0)
        else
          match nn with
          | none => (s, -1)
          | some nn =>
            let s := newLeaf s nn glb d.mn (d.vals.headD 0)
            if d.id = glb then (retraceAdd E k (attachLeft s glb nn) nn, 0)
            else if (s.h glb).succ = 0 then
              (s.mod nn (fun n => { n with succ := 0, pred := glb }) |>.mod glb (fun n => { n with right := nn }), -1)
            else (retraceAdd E k (attachRight s glb nn) nn, 0))) :
    (f.2 = 0 ∧ ∃ t', Whole E f.1 t' ∧ Added E row nn (plug c (.node d l r)) t') ∨
    (nn = none ∧ f.2 = -1 ∧ ∃ t', Whole E f.1 t' ∧ Lost E row (plug c (.node d l r)) t') := by
  have hmn : d.mn = E.key (d.vals.headD 0) := (hw.nok d (by simp [nodes_plug])).mn
  have hdne : d.vals ≠ [] := (hw.nok d (by simp [nodes_plug])).ne
  obtain ⟨d', hid, hw', hlen', hins, hins2⟩ := insertFull_res O hw hs hp hlen h1 h2
  generalize insertFull E s d.id row = s1 at *
  have hids0 : (plug c (T.node d' l r)).ids = (plug c (T.node d l r)).ids := by simp [ids_plug, hid]
  have hold : elems (plug c (T.node d l r)) = elemsC (preN c ++ l.nodes) ++ d.vals ++ elemsC (r.nodes ++ postN c) := by
    simp [elems, nodes_plug, elemsC]
  have hold' : elems (plug c (T.node d' l r)) = elemsC (preN c ++ l.nodes) ++ d'.vals ++ elemsC (r.nodes ++ postN c) := by
    simp [elems, nodes_plug, elemsC]
  have hdd : d.vals = d.vals.headD 0 :: d.vals.drop 1 := by
    cases hv : d.vals with
    | nil => exact absurd hv hdne
    | cons a m => simp
  have hlost : Lost E row (plug c (T.node d l r)) (plug c (T.node d' l r)) := by
    refine ⟨elemsC (preN c ++ l.nodes), d.vals.headD 0, d.vals.drop 1 ++ elemsC (r.nodes ++ postN c), ?_, ?_, hids0⟩
    · rw [hold]
      conv => lhs; rw [hdd]
      simp
    · rw [hold', ← List.append_assoc]; exact hins2
  rw [← hold] at hins
  generalize hmr : d.vals.headD 0 = mr at *
  have i1 := hw'.rep.focus.2.1
  have hleft : (s1.h d.id).left = l.rid := by rw [← hid]; exact i1.left
  have hlen2 := length_le_height c (T.node d l r)
  have hnl : l.rid = 0 ↔ l = .nil := rid_zero (c := .L d' r :: c) hw'.rep
  by_cases hl : l = .nil
  · subst hl
    have hv1 : ¬ (s1.h d.id).vals.length < CAP := by rw [← hid, i1.vals, hlen']; omega
    simp only [hleft, rid_nil, ne_eq, not_true_eq_false, if_false, hv1] at hf
    cases nn with
    | none =>
      subst hf
      exact .inr ⟨rfl, rfl, _, hw', hlost⟩
    | some x =>
      obtain ⟨hx, hfr⟩ := hnn x rfl
      simp only [if_true] at hf
      subst hf
      left
      have hrep := attachLeft_rep (v := d.mn) (row := mr) hw'.rep hx (by rw [hids0]; exact hfr)
      rw [hid] at hrep
      obtain ⟨t', q1, q2, q3⟩ := attach_res (t := .nil) (c := .L d' r :: c) hrep (E := E) ⟨hw'.avl, hw'.nok⟩ hmn (k := k)
        (by simp only [List.length_cons]; simp only [height_node] at hlen2; omega)
      refine ⟨rfl, t', q1, ⟨?_, ?_, ?_⟩⟩
      · rw [q3]
        simpa [preN, postN, elemsC] using hins
      · intro i hi
        rw [q2] at hi
        simp only [plug, Frame.fill, ids_plug, ids_node, ids_nil, leafD, List.mem_append, List.mem_cons, List.nil_append, hid] at hi ⊢
        rw [Option.some.injEq]
        simp only [List.not_mem_nil, or_false] at hi
        rcases hi with (hi | hi | hi) | hi
        · exact .inl (.inl (.inl hi))
        · exact .inr hi.symm
        · exact .inl (.inl (.inr hi))
        · exact .inl (.inr hi)
      · intro i hi
        rw [q2]
        simp only [plug, Frame.fill, ids_plug, ids_node, ids_nil, leafD, List.mem_append, List.mem_cons, List.nil_append, hid] at hi ⊢
        tauto
  · have hl0 : l.rid ≠ 0 := fun e => hl (hnl.1 e)
    -- the greatest lower bound
    obtain ⟨q, g, hq⟩ : ∃ q g, l.nodes = q ++ [g] := by
      rcases List.eq_nil_or_concat l.nodes with e | ⟨q, g, e⟩
      · exact absurd (nodes_eq_nil.1 e) hl
      · exact ⟨q, g, by rw [e, List.concat_eq_append]⟩
    obtain ⟨c1, gl, gr, hle, hpre, hpo⟩ := zipper_at l hq
    have hpo' := hpo.symm
    rw [List.append_eq_nil_iff, nodes_eq_nil] at hpo'
    obtain ⟨hgr, hpo2⟩ := hpo'
    subst hgr
    have hT : plug c (T.node d' l r) = plug (c1 ++ .L d' r :: c) (.node g gl .nil) := by rw [plug_append, ← hle]; rfl
    have hC : (c1 ++ Frame.L d' r :: c).length + 1 ≤ (plug c (T.node d l r)).height := by
      have a1 := length_le_height (c1 ++ .L d r :: c) (T.node g gl .nil)
      have a2 : plug (c1 ++ .L d r :: c) (.node g gl .nil) = plug c (T.node d l r) := by rw [plug_append, ← hle]; rfl
      rw [a2] at a1
      simp only [List.length_append, List.length_cons, height_node, height_nil] at a1 ⊢
      omega
    have hpreC : preN (c1 ++ Frame.L d' r :: c) ++ gl.nodes = preN c ++ q := by rw [preN_append, hpre]; simp [preN]
    have hpostC : postN (c1 ++ Frame.L d' r :: c) = d' :: (r.nodes ++ postN c) := by rw [postN_append, hpo2]; simp [postN]
    have hw2 := hw'
    rw [hT] at hw2
    have ig := hw2.rep.focus.2.1
    have hgpred : (s1.h d.id).pred = g.id := by
      rw [← hid, (hw'.rep.links (pre := preN c ++ l.nodes) (d := d') (post := r.nodes ++ postN c) (by simp [nodes_plug])).1, hq, ← List.append_assoc, lastId_concat]
    have hgsucc : (s1.h g.id).succ = d.id := by
      rw [(hw2.rep.links (pre := preN c ++ q) (d := g) (post := d' :: (r.nodes ++ postN c)) (by rw [nodes_plug, ← hpreC, ← hpostC]; simp)).2]
      exact hid
    have hd0 : d.id ≠ 0 := fun e => hw'.rep.pos (by simp [ids_plug, hid, e])
    have hgd : d.id ≠ g.id := by
      intro e
      have := hw'.rep.nodup3.1
      simp only [ids_node, List.nodup_append] at this
      exact this.2.2 g.id (by simp [ids, hq]) d'.id (by simp) (by rw [hid, e])
    simp only [hleft, ne_eq, hl0, not_false_eq_true, if_true, hgpred, ig.vals, hgd, if_false] at hf
    have hgok := hw2.nok g (by simp [nodes_plug])
    have helg : elemsC (preN c ++ l.nodes) = elemsC (preN c ++ q) ++ g.vals := by rw [hq, ← List.append_assoc, elemsC_append, elemsC_cons]; simp [elemsC]
    by_cases hroom : g.vals.length < CAP
    · simp only [hroom, if_true] at hf
      subst hf
      left
      dsimp only
      let g' : D κ := { g with vals := g.vals ++ [mr], mx := d.mn }
      refine ⟨rfl, plug (c1 ++ .L d' r :: c) (.node g' gl .nil), hw2.modFocus (d' := g') _ ⟨rfl, rfl, rfl⟩ ⟨rfl, rfl⟩
        ⟨ig.1, ig.2, ig.3, ig.4, ig.5, ig.6, rfl, ?_⟩ ⟨?_, ?_, ?_, ?_⟩, ⟨?_, ?_, ?_⟩⟩
      · simp only [g', ig.vals]
      · simp [g']
      · simp only [g', List.length_append, List.length_cons, List.length_nil]; omega
      · simp only [g']
        rw [headD_append hgok.ne]; exact hgok.mn
      · simp only [g']
        rw [getLastD_append (by simp)]; exact hmn
      · have e : elems (plug (c1 ++ .L d' r :: c) (.node g' gl .nil)) = elemsC (preN c ++ l.nodes) ++ mr :: d'.vals ++ elemsC (r.nodes ++ postN c) := by
          rw [helg, ← hpreC, elems_plug, hpostC, elemsC_cons, elemsC_append]
          simp [elemsC, elems, g']
        rw [e]; exact hins
      · intro i hi
        left
        rw [← hids0, hT]
        simpa [ids_plug, g'] using hi
      · intro i hi
        rw [← hids0, hT] at hi
        simpa [ids_plug, g'] using hi
    · simp only [hroom, if_false] at hf
      cases nn with
      | none =>
        subst hf
        exact .inr ⟨rfl, rfl, _, hw', hlost⟩
      | some x =>
        obtain ⟨hx, hfr⟩ := hnn x rfl
        rw [← hids0, hT] at hfr
        have hxg : g.id ≠ x := fun e => hfr (by simp [ids_plug, e])
        have hsn : ((newLeaf s1 x g.id d.mn mr).h g.id).succ = d.id := by
          rw [newLeaf, St.mod_ne _ _ hxg]; exact hgsucc
        simp only [hsn, hd0, if_false] at hf
        subst hf
        left
        have hrep := attachRight_rep (v := d.mn) (row := mr) hw2.rep hx hfr
        obtain ⟨t', q1, q2, q3⟩ := attach_res (t := .nil) (c := .R g gl :: (c1 ++ .L d' r :: c)) hrep (E := E) ⟨hw2.avl, hw2.nok⟩ hmn (k := k)
          (by simp only [List.length_cons, List.length_append] at hC ⊢; omega)
        refine ⟨rfl, t', q1, ⟨?_, ?_, ?_⟩⟩
        · have e : elems t' = elemsC (preN c ++ l.nodes) ++ mr :: d'.vals ++ elemsC (r.nodes ++ postN c) := by
            rw [q3, helg, ← hpreC]
            simp only [preN, postN, hpostC, elemsC_cons, elemsC_append]
            simp [elemsC]
          rw [e]; exact hins
        · intro i hi
          rw [q2] at hi
          rw [← hids0, hT]
          simp only [plug, Frame.fill, ids_plug, ids_node, ids_nil, leafD, List.mem_append, List.mem_cons, List.nil_append] at hi ⊢
          rw [Option.some.injEq]
          simp only [List.not_mem_nil, or_false] at hi ⊢
          rcases hi with (hi | hi | hi | hi) | hi
          · exact .inl (.inl (.inl hi))
          · exact .inl (.inl (.inr (.inl hi)))
          · exact .inl (.inl (.inr (.inr hi)))
          · exact .inr hi.symm
          · exact .inl (.inr hi)
        · intro i hi
          rw [← hids0, hT] at hi
          rw [q2]
          simp only [plug, Frame.fill, ids_plug, ids_node, ids_nil, leafD, List.mem_append, List.mem_cons, List.nil_append] at hi ⊢
          tauto

/-- `ttree_add_row` on a non-empty index. -/
theorem addRow_res {E : Env κ} {P : κ → Prop} (O : Ord E P) {s : St κ} {t : T κ} {row : Nat} (hw : Whole E s t) (hne : t ≠ .nil)
    (hs : Sorted E P (elems t)) (hp : P (E.key row)) (nn : Option Nat) (hnn : ∀ x, nn = some x → x ≠ 0 ∧ x ∉ t.ids)
    {k : Nat} (hk : t.height + 1 < k) :
    ((addRow E k s nn row).2 = 0 ∧ ∃ t', Whole E (addRow E k s nn row).1 t' ∧ Added E row nn t t') ∨
    (nn = none ∧ (addRow E k s nn row).2 = -1 ∧ ((addRow E k s nn row).1 = s ∨ ∃ t', Whole E (addRow E k s nn row).1 t' ∧ Lost E row t t')) := by
  have hns : NSorted E P t.nodes := nsorted O hs hw.nok
  have hsr := searchRight_res O hp t [] k (by omega) hne hw.rep hns (by simp [postN]) (by simp [preN])
  have hroot : s.root = t.rid := hw.rep.root
  have hr0 : s.root ≠ 0 := by
    rw [hroot]; intro e; exact hw.rep.pos (e ▸ rid_mem hne)
  rw [show lastId (preN ([] : Ctx κ)) = 0 from rfl, ← hroot] at hsr
  unfold addRow
  rw [if_neg hr0]
  generalize hx : searchRight E s (E.key row) k s.root 0 = x at hsr
  obtain ⟨node, bt⟩ := x
  obtain ⟨pre, d, post, hnodes, hid, hpost, hb⟩ := hsr
  simp only at hid
  subst hid
  obtain ⟨c, l, r, rfl, rfl, rfl⟩ := zipper_at t hnodes
  have i0 := hw.rep.focus.2.1
  have hdok := hw.nok d (by simp [nodes_plug])
  have hcl := length_le_height c (T.node d l r)
  simp only [height_node] at hcl
  cases bt with
  | really =>
    simp only at hb
    simp only [hx, i0.vals, i0.mn]
    by_cases hroom : d.vals.length < CAP
    · rw [if_pos hroom]
      exact .inl ⟨rfl, add_room O hw hs hp hroom hb.1 hb.2 hpost nn⟩
    · rw [if_neg hroom]
      rcases add_full O hw hs hp (by have := hdok.cap; omega) hb.1 hb.2 nn hnn hk _ rfl with h | h
      · exact .inl h
      · exact .inr ⟨h.1, h.2.1, .inr h.2.2⟩
  | deadLeft =>
    simp only at hb
    simp only [hx, i0.vals]
    obtain ⟨hb1, hb2, hb3⟩ := hb
    have hl : l = .nil := (rid_zero (c := .L d r :: c) hw.rep).1 (by rw [← i0.left]; exact hb3)
    subst hl
    obtain ⟨a1, a2⟩ := add_deadLeft O hw hs hp hb1 (by simpa using hb2) nn
    by_cases hroom : d.vals.length < CAP
    · rw [if_pos hroom]
      left
      refine ⟨rfl, ?_⟩
      have : ((s.mod d.id (fun n => { n with vals := row :: n.vals, mn := E.key row })).h d.id).vals.length ≠ 1 := by
        rw [St.mod_self]
        simp only [i0.vals, List.length_cons]
        have := hdok.ne
        have : d.vals.length ≠ 0 := fun e => this (List.length_eq_zero_iff.1 e)
        omega
      simp only [if_true, this, if_false]
      exact a1 hroom
    · rw [if_neg hroom]
      cases nn with
      | none => exact .inr ⟨rfl, rfl, .inl rfl⟩
      | some x => exact .inl ⟨rfl, a2 x k rfl (hnn x rfl).1 (hnn x rfl).2 (by omega)⟩
  | deadRight =>
    simp only at hb
    simp only [hx, i0.vals]
    obtain ⟨hb1, hb3⟩ := hb
    have hrn : r = .nil := (rid_zero (c := .R d l :: c) hw.rep).1 (by rw [← i0.right]; exact hb3)
    subst hrn
    obtain ⟨a1, a2⟩ := add_deadRight O hw hs hp hb1 (by simpa using hpost) nn
    by_cases hroom : d.vals.length < CAP
    · rw [if_pos hroom]
      left
      refine ⟨rfl, ?_⟩
      have : ((s.mod d.id (fun n => { n with vals := n.vals ++ [row], mx := E.key row })).h d.id).vals.length ≠ 1 := by
        rw [St.mod_self]
        simp only [i0.vals, List.length_append, List.length_cons, List.length_nil]
        have := hdok.ne
        have : d.vals.length ≠ 0 := fun e => this (List.length_eq_zero_iff.1 e)
        omega
      simp only [reduceCtorEq, this, if_false]
      exact a1 hroom
    · rw [if_neg hroom]
      cases nn with
      | none => exact .inr ⟨rfl, rfl, .inl rfl⟩
      | some x => exact .inl ⟨rfl, a2 x k rfl (hnn x rfl).1 (hnn x rfl).2 (by omega)⟩

end WG.TTree
