import Verif.TTree.RemoveRow
/-!
# The index as a sorted list
-/
namespace WG.TTree
variable {κ : Type}
open T

/-- The state represents the sorted list of rows `l`. -/
def Index (E : Env κ) (P : κ → Prop) (s : St κ) (l : List Nat) : Prop :=
  (Empty E s ∧ l = []) ∨ ∃ t, Whole E s t ∧ t ≠ .nil ∧ Sorted E P l ∧ elems t = l

theorem index_create (E : Env κ) (P : κ → Prop) (h : Nat → Nd κ) {root : Nat} (hr : root ≠ 0) : Index E P (create E h root) [] := by
  refine .inl ⟨?_, rfl⟩
  constructor <;> simp [create, hr]

theorem nodes_length_le {E : Env κ} {t : T κ} (h : ∀ d ∈ t.nodes, NOk E d) : t.nodes.length ≤ (elems t).length := by
  unfold elems
  generalize t.nodes = l at *
  induction l with
  | nil => simp
  | cons a l ih =>
    have := ih (fun d hd => h d (by simp [hd]))
    have h1 := List.length_pos_iff.2 (h a (by simp)).ne
    simp only [List.length_cons, List.flatMap_cons, List.length_append]
    omega

theorem height_le_nodes : ∀ t : T κ, t.height ≤ t.nodes.length := by
  intro t
  induction t with
  | nil => simp
  | node d l r ihl ihr => simp; omega

theorem linked_ids {s : St κ} {t : T κ} (hr : Rep s t) {i : Nat} : Linked s i ↔ i ∈ t.ids := by
  have key : ∀ (t : T κ) (c : Ctx κ), Rep s (plug c t) → (t ≠ .nil → Linked s t.rid) → ∀ i ∈ t.ids, Linked s i := by
    intro t
    induction t with
    | nil => simp
    | node d l r ihl ihr =>
      intro c hc hl i hi
      have i0 := hc.focus.2.1
      have h0 : Linked s d.id := hl (by simp)
      simp only [ids_node, List.mem_append, List.mem_cons] at hi
      rcases hi with hi | rfl | hi
      · refine ihl (.L d r :: c) hc (fun hne => ?_) i hi
        have : l.rid ≠ 0 := fun e => hne ((rid_zero (c := .L d r :: c) hc).1 e)
        have := Linked.left h0 (by rw [i0.left]; exact this)
        rwa [i0.left] at this
      · exact h0
      · refine ihr (.R d l :: c) hc (fun hne => ?_) i hi
        have : r.rid ≠ 0 := fun e => hne ((rid_zero (c := .R d l :: c) hc).1 e)
        have := Linked.right h0 (by rw [i0.right]; exact this)
        rwa [i0.right] at this
  constructor
  · intro h
    induction h with
    | root h =>
      rw [hr.root] at h ⊢
      exact rid_mem (by rintro rfl; exact h rfl)
    | @left i _ hne ih =>
      obtain ⟨d, hd, rfl⟩ := List.mem_map.1 ih
      obtain ⟨c, l, r, rfl⟩ := exists_zipper t hd
      have i0 := hr.focus.2.1
      rw [i0.left] at hne ⊢
      have : l.rid ∈ l.ids := rid_mem (by rintro rfl; exact hne rfl)
      simp [ids_plug, this]
    | @right i _ hne ih =>
      obtain ⟨d, hd, rfl⟩ := List.mem_map.1 ih
      obtain ⟨c, l, r, rfl⟩ := exists_zipper t hd
      have i0 := hr.focus.2.1
      rw [i0.right] at hne ⊢
      have : r.rid ∈ r.ids := rid_mem (by rintro rfl; exact hne rfl)
      simp [ids_plug, this]
  · intro hi
    refine key t [] hr (fun hne => ?_) i hi
    rw [← hr.root]
    refine .root ?_
    rw [hr.root]
    intro e
    exact hr.pos (e ▸ rid_mem hne)

theorem linked_empty {E : Env κ} {s : St κ} (h : Empty E s) {i : Nat} : Linked s i ↔ i = s.root := by
  constructor
  · intro hl
    induction hl with
    | root _ => rfl
    | left _ hne ih => subst ih; exact absurd h.left hne
    | right _ hne ih => subst ih; exact absurd h.right hne
  · rintro rfl; exact .root h.ne

/-- Insertion into the empty index. -/
theorem addRow_empty {E : Env κ} {P : κ → Prop} (O : Ord E P) {s : St κ} (h : Empty E s) {row : Nat} (hp : P (E.key row)) {nn : Option Nat} {k : Nat} (hk : 0 < k) :
    (addRow E k s nn row).2 = 0 ∧ Index E P (addRow E k s nn row).1 [row] ∧ ∀ i, Linked (addRow E k s nn row).1 i ↔ i = s.root := by
  obtain ⟨k, rfl⟩ : ∃ j, k = j + 1 := ⟨k - 1, by omega⟩
  have h1 : ∃ bt, bt ≠ .really ∧ searchRight E s (E.key row) (k + 1) s.root 0 = (s.root, bt) := by
    simp only [searchRight, h.mn, h.mx, h.left, h.right]
    have := O.ill hp
    cases hc : E.cmp (E.key row) E.ill with
    | lt => exact ⟨.deadLeft, by simp, by simp⟩
    | eq => exact absurd hc this
    | gt => exact ⟨.deadRight, by simp, by simp⟩
  obtain ⟨bt, hbt, hsr⟩ := h1
  have aux : ∀ f g : Nd κ → Nd κ, f (s.h s.root) = g (s.h s.root) → s.mod s.root f = s.mod s.root g := by
    intro f g h; unfold St.mod; congr 1; funext j; by_cases x : j = s.root <;> simp [x, h]
  have heq : addRow E (k + 1) s nn row = (s.mod s.root (fun n => { n with vals := [row], mn := E.key row, mx := E.key row }), 0) := by
    unfold addRow
    rw [if_neg h.ne]
    simp only [hsr]
    cases bt with
    | really => exact absurd rfl hbt
    | deadLeft =>
      simp only [h.vals, List.length_nil, CAP, Nat.zero_lt_succ, if_true, St.mod_self, List.length_cons, St.mod_mod]
      exact congrArg (·, 0) (aux _ _ (by simp [h.vals]))
    | deadRight =>
      simp only [h.vals, List.length_nil, CAP, Nat.zero_lt_succ, if_true, reduceCtorEq, if_false, St.mod_self, List.nil_append, List.length_cons, St.mod_mod]
      exact congrArg (·, 0) (aux _ _ (by simp [h.vals]))
  rw [heq]
  let d : D κ := { id := s.root, lh := 0, rh := 0, mn := E.key row, mx := E.key row, vals := [row] }
  have hrep : Rep (s.mod s.root (fun n => { n with vals := [row], mn := E.key row, mx := E.key row })) (T.node d .nil .nil) := by
    refine ⟨?_, rfl, by simp, by simpa [d] using h.ne.symm, ?_, by simp [d, h.minN], by simp [d, h.maxN]⟩
    · refine ⟨?_, trivial, trivial⟩
      simp only [d, St.mod_self]
      constructor <;> simp [h.parent, h.left, h.right, h.lh, h.rh]
    · simp [Dll, d, St.mod_self, h.succ, h.pred]
  refine ⟨rfl, ?_, ?_⟩
  · refine .inr ⟨T.node d .nil .nil, ⟨hrep, by simp [AVL, d], ?_⟩, by simp, ⟨by simp, by simpa using hp⟩, by simp [elems, d]⟩
    simp only [nodes_node, nodes_nil, List.nil_append, List.mem_singleton, forall_eq]
    constructor <;> simp [d, CAP]
  · intro i
    rw [linked_ids hrep]
    simp [d]

theorem addRow_root0 {E : Env κ} {s : St κ} (hr : s.root = 0) {k : Nat} {nn : Option Nat} {row : Nat} : addRow E k s nn row = (s, -1) := by
  simp [addRow, hr]

/-- Insertion when a node can be allocated. -/
theorem index_add {E : Env κ} {P : κ → Prop} (O : Ord E P) {s : St κ} {l : List Nat} (h : Index E P s l) {nn row k : Nat} (hp : P (E.key row))
    (hnn : nn ≠ 0) (hfr : ¬ Linked s nn) (hk : fuel l.length ≤ k) :
    (addRow E k s (some nn) row).2 = 0 ∧ ∃ l', Index E P (addRow E k s (some nn) row).1 l' ∧ Ins E row l l' ∧
      ∀ i, (Linked s i → Linked (addRow E k s (some nn) row).1 i) ∧ (Linked (addRow E k s (some nn) row).1 i → Linked s i ∨ i = nn) := by
  rcases h with ⟨he, rfl⟩ | ⟨t, hw, hne, hs, rfl⟩
  · obtain ⟨h1, h2, h3⟩ := addRow_empty O he hp (nn := some nn) (k := k) (by unfold fuel at hk; omega)
    refine ⟨h1, [row], h2, ⟨[], [], rfl, rfl, by simp, by simp⟩, fun i => ?_⟩
    rw [h3, linked_empty he]
    exact ⟨id, .inl⟩
  · have hn := nodes_length_le hw.nok
    have hh := height_le_nodes t
    rw [linked_ids hw.rep] at hfr
    have := addRow_res O hw hne hs hp (some nn) (by rintro x ⟨rfl⟩; exact ⟨hnn, hfr⟩) (k := k) (by unfold fuel at hk; omega)
    rcases this with ⟨h1, t', hw', ha⟩ | ⟨h1, _⟩
    · refine ⟨h1, elems t', .inr ⟨t', hw', ?_, ha.ins.sorted hs hp, rfl⟩, ha.ins, fun i => ?_⟩
      · rintro rfl
        have := ha.ins.perm.length_eq
        simp at this
      · rw [linked_ids hw.rep, linked_ids hw'.rep]
        refine ⟨ha.sub i, fun h => ?_⟩
        rcases ha.ids i h with h | h
        · exact .inl h
        · exact .inr (by simpa using h.symm)
    · simp at h1

/-- Insertion when no node can be allocated: it may fail, and then it either leaves the index as it was, or some row `m` of the index
has been lost (and the new row is in). -/
theorem index_add_nomem {E : Env κ} {P : κ → Prop} (O : Ord E P) {s : St κ} {l : List Nat} (h : Index E P s l) {row k : Nat} (hp : P (E.key row))
    (hk : fuel l.length ≤ k) :
    ∃ l', Index E P (addRow E k s none row).1 l' ∧
      (((addRow E k s none row).2 = 0 ∧ Ins E row l l') ∨
       ((addRow E k s none row).2 = -1 ∧ ((addRow E k s none row).1 = s ∧ l' = l ∨ ∃ A m B, l = A ++ m :: B ∧ Ins E row (A ++ B) l'))) := by
  rcases h with ⟨he, rfl⟩ | ⟨t, hw, hne, hs, rfl⟩
  · obtain ⟨h1, h2, h3⟩ := addRow_empty O he hp (nn := none) (k := k) (by unfold fuel at hk; omega)
    exact ⟨[row], h2, .inl ⟨h1, ⟨[], [], rfl, rfl, by simp, by simp⟩⟩⟩
  · have hn := nodes_length_le hw.nok
    have hh := height_le_nodes t
    have := addRow_res O hw hne hs hp none (by simp) (k := k) (by unfold fuel at hk; omega)
    have hnn : ∀ {m : List Nat} {t' : T κ}, Ins E row m (elems t') → t' ≠ .nil := by
      rintro m t' hi rfl
      have := hi.perm.length_eq
      simp at this
    rcases this with ⟨h1, t', hw', ha⟩ | ⟨_, h1, h2⟩
    · exact ⟨elems t', .inr ⟨t', hw', hnn ha.ins, ha.ins.sorted hs hp, rfl⟩, .inl ⟨h1, ha.ins⟩⟩
    · rcases h2 with h2 | ⟨t', hw', A, m, B, h3, h4, h5⟩
      · refine ⟨elems t, ?_, .inr ⟨h1, .inl ⟨h2, rfl⟩⟩⟩
        rw [h2]
        exact .inr ⟨t, hw, hne, hs, rfl⟩
      · have hsub : (A ++ B).Sublist (elems t) := by
          rw [h3]; exact List.Sublist.append (List.Sublist.refl _) (List.sublist_cons_self _ _)
        have hs2 : Sorted E P (A ++ B) := ⟨hs.pw.sublist hsub, fun x hx => hs.P x (hsub.subset hx)⟩
        exact ⟨elems t', .inr ⟨t', hw', hnn h4, h4.sorted hs2 hp, rfl⟩, .inr ⟨h1, .inr ⟨A, m, B, h3, h4⟩⟩⟩

/-- Removal. -/
theorem index_remove {E : Env κ} {P : κ → Prop} (O : Ord E P) {s : St κ} {l : List Nat} (h : Index E P s l) {row k : Nat} (hp : P (E.key row))
    (hk : fuel l.length ≤ k) :
    Index E P (removeRow E k s row).1 (l.erase row) ∧
    (row ∈ l → (removeRow E k s row).2.2 = 0 ∧ ∀ i, (Linked s i ↔ i ∈ (removeRow E k s row).2.1 ∨ Linked (removeRow E k s row).1 i) ∧
        ¬ (i ∈ (removeRow E k s row).2.1 ∧ Linked (removeRow E k s row).1 i)) ∧
    (row ∉ l → ((removeRow E k s row).2.2 = -2 ∨ (removeRow E k s row).2.2 = -3) ∧ (removeRow E k s row).1 = s ∧ (removeRow E k s row).2.1 = []) := by
  rcases h with ⟨he, rfl⟩ | ⟨t, hw, hne, hs, rfl⟩
  · obtain ⟨k, rfl⟩ : ∃ j, k = j + 1 := ⟨k - 1, by unfold fuel at hk; omega⟩
    have h1 : ∃ bt, bt ≠ .really ∧ searchLeft E s (E.key row) (k + 1) s.root 0 = (s.root, bt) := by
      simp only [searchLeft, he.mn, he.mx, he.left, he.right]
      have := O.ill hp
      cases hc : E.cmp (E.key row) E.ill with
      | lt => exact ⟨.deadLeft, by simp, by simp⟩
      | eq => exact absurd hc this
      | gt => exact ⟨.deadRight, by simp, by simp⟩
    obtain ⟨bt, hbt, hsr⟩ := h1
    have heq : removeRow E (k + 1) s row = (s, [], -2) := by
      unfold removeRow
      rw [if_neg he.ne]
      simp only [hsr]
      cases bt with
      | really => exact absurd rfl hbt
      | deadLeft => rfl
      | deadRight => rfl
    rw [heq]
    exact ⟨.inl ⟨he, rfl⟩, by simp, fun _ => ⟨.inl rfl, rfl, rfl⟩⟩
  · have hn := nodes_length_le hw.nok
    have hh := height_le_nodes t
    have := removeRow_res O hw hne hs hp (k := k) (by unfold fuel at hk; omega)
    refine ⟨?_, ?_, this.absent⟩
    · by_cases hm : row ∈ elems t
      · have hs2 : Sorted E P ((elems t).erase row) := ⟨hs.pw.sublist List.erase_sublist, fun x hx => hs.P x (List.mem_of_mem_erase hx)⟩
        rcases (this.present hm).2 with ⟨h1, h2, _⟩ | ⟨t', h1, h2, h3, _⟩
        · exact .inl ⟨h2, h1⟩
        · exact .inr ⟨t', h1, h2, hs2, h3⟩
      · rw [(this.absent hm).2.1, List.erase_of_not_mem hm]
        exact .inr ⟨t, hw, hne, hs, rfl⟩
    · intro hm
      refine ⟨(this.present hm).1, fun i => ?_⟩
      rcases (this.present hm).2 with ⟨h1, h2, h3, h4, h5⟩ | ⟨t', h1, h2, h3, h4⟩
      · rw [h3, linked_empty h2, h5, linked_ids hw.rep, h4]
        simp
      · rw [linked_ids hw.rep, linked_ids h1.rep]
        have hnd : ((removeRow E k s row).2.1 ++ t'.ids).Nodup := h4.nodup_iff.2 hw.rep.nodup
        refine ⟨by rw [← h4.mem_iff, List.mem_append], ?_⟩
        rintro ⟨a, b⟩
        exact (List.nodup_append.1 hnd).2.2 i a i b rfl

/-- Values of rows outside the index do not matter. -/
theorem index_update {E E' : Env κ} {P P' : κ → Prop} {s : St κ} {l : List Nat} (h : Index E P s l) (hill : E'.ill = E.ill)
    (hkey : ∀ r ∈ l, E'.key r = E.key r ∧ P' (E'.key r)) (hcmp : ∀ r ∈ l, ∀ q ∈ l, E'.cmp (E.key r) (E.key q) = E.cmp (E.key r) (E.key q)) :
    Index E' P' s l := by
  rcases h with ⟨he, rfl⟩ | ⟨t, hw, hne, hs, rfl⟩
  · refine .inl ⟨?_, rfl⟩
    obtain ⟨_, _, _, _, _, _, h1, h2, _, _, _, _, _⟩ := he
    constructor <;> first | assumption | (rw [hill]; assumption)
  · have hm : ∀ d ∈ t.nodes, ∀ x ∈ d.vals, x ∈ elems t := fun d hd x hx => List.mem_flatMap.2 ⟨d, hd, hx⟩
    refine .inr ⟨t, ⟨hw.rep, hw.avl, fun d hd => ?_⟩, hne, ⟨?_, fun x hx => (hkey x hx).2⟩, rfl⟩
    · have := hw.nok d hd
      refine ⟨this.ne, this.cap, ?_, ?_⟩
      · rw [this.mn, (hkey _ (hm d hd _ (head_mem this.ne))).1]
      · rw [this.mx, (hkey _ (hm d hd _ (last_mem this.ne))).1]
    · refine hs.pw.imp_of_mem (fun {a b} ha hb h => ?_)
      unfold Env.le at *
      rwa [(hkey a ha).1, (hkey b hb).1, hcmp a ha b hb]

theorem hist_index {E : Env κ} {P : κ → Prop} {s : St κ} {l : List Nat} (h : Hist E P s l) : Ord E P ∧ ∃ l', Index E P s l' ∧ l'.Perm l := by
  induction h with
  | create h root O hr => exact ⟨O, [], index_create _ _ h hr, .nil⟩
  | add k nn row _ hp h0 hl hk ih =>
    obtain ⟨O, l', hi, hpm⟩ := ih
    obtain ⟨_, l2, h2, h3, _⟩ := index_add O hi hp h0 hl (by rw [hpm.length_eq]; exact hk)
    exact ⟨O, l2, h2, h3.perm.trans (hpm.cons row)⟩
  | remove k row _ hp hk ih =>
    obtain ⟨O, l', hi, hpm⟩ := ih
    exact ⟨O, _, (index_remove O hi hp (by rw [hpm.length_eq]; exact hk)).1, hpm.erase row⟩
  | update _ O hill hkey hcmp ih =>
    obtain ⟨_, l', hi, hpm⟩ := ih
    exact ⟨O, l', index_update hi hill (fun r hr => hkey r (hpm.mem_iff.1 hr)) (fun r hr q hq => hcmp r (hpm.mem_iff.1 hr) q (hpm.mem_iff.1 hq)), hpm⟩

/-! ## Walking -/

theorem walk_suffix {s : St κ} {t : T κ} (hr : Rep s t) : ∀ (post pre : List (D κ)) (k : Nat), t.nodes = pre ++ post → post.length < k →
    walk s k (headId post) = elemsC post := by
  intro post
  induction post with
  | nil =>
    intro pre k _ hk
    cases k with
    | zero => simp at hk
    | succ k => simp [walk, headId, elemsC]
  | cons d post ih =>
    intro pre k e hk
    cases k with
    | zero => simp at hk
    | succ k =>
      obtain ⟨_, _, _, i0⟩ := hr.get (d := d) (by simp [e])
      have hd0 : d.id ≠ 0 := fun x => hr.pos (List.mem_map.2 ⟨d, by simp [e], x⟩)
      rw [walk, show headId (d :: post) = d.id from rfl, if_neg hd0, (hr.links e).2, ih (pre ++ [d]) k (by simp [e]) (by simpa using hk), i0.vals, elemsC_cons]

theorem walkBack_prefix {s : St κ} {t : T κ} (hr : Rep s t) : ∀ (n : Nat) (pre post : List (D κ)) (k : Nat), pre.length = n → t.nodes = pre ++ post → n < k →
    walkBack s k (lastId pre) = (elemsC pre).reverse := by
  intro n
  induction n with
  | zero =>
    intro pre post k hn _ hk
    cases k with
    | zero => simp at hk
    | succ k =>
      rw [List.length_eq_zero_iff] at hn
      subst hn
      simp [walkBack, lastId, elemsC]
  | succ n ih =>
    intro pre post k hn e hk
    cases k with
    | zero => simp at hk
    | succ k =>
      rcases List.eq_nil_or_concat pre with h | ⟨q, d, h⟩
      · subst h; simp at hn
      · rw [List.concat_eq_append] at h
        subst h
        obtain ⟨_, _, _, i0⟩ := hr.get (d := d) (by simp [e])
        have hd0 : d.id ≠ 0 := fun x => hr.pos (List.mem_map.2 ⟨d, by simp [e], x⟩)
        have e' : t.nodes = q ++ d :: post := by simp [e]
        rw [walkBack, lastId_concat, if_neg hd0, (hr.links e').1, ih q (d :: post) k (by simpa using hn) e' (by omega), i0.vals, elemsC_append]
        simp [elemsC]

theorem index_walk {E : Env κ} {P : κ → Prop} {s : St κ} {l : List Nat} (h : Index E P s l) {k : Nat} (hk : l.length + 2 ≤ k) :
    walk s k s.minN = l ∧ walkBack s k s.maxN = l.reverse := by
  rcases h with ⟨he, rfl⟩ | ⟨t, hw, hne, hs, rfl⟩
  · obtain ⟨k, rfl⟩ : ∃ j, k = j + 2 := ⟨k - 2, by simp at hk; omega⟩
    simp [walk, walkBack, he.minN, he.maxN, he.ne, he.vals, he.succ, he.pred]
  · have hn := nodes_length_le hw.nok
    constructor
    · have := walk_suffix hw.rep t.nodes [] k rfl (by omega)
      rw [hw.rep.minN]
      have e : t.ids.headD 0 = headId t.nodes := by unfold T.ids headId; cases t.nodes <;> rfl
      rw [e, this]; rfl
    · have := walkBack_prefix hw.rep _ t.nodes [] k rfl (by simp) (by omega)
      rw [hw.rep.maxN]
      have e : t.ids.getLastD 0 = lastId t.nodes := by
        unfold T.ids
        rcases List.eq_nil_or_concat t.nodes with h | ⟨q, d, h⟩
        · rw [h]; rfl
        · rw [h, List.concat_eq_append, lastId_concat]; simp
      rw [e, this]; rfl

/-! ## Heights -/

theorem ht_sub {s : St κ} : ∀ (t : T κ) (c : Ctx κ), Rep s (plug c t) → Ht s t.rid t.height := by
  intro t
  induction t with
  | nil => intro c _; exact .zero
  | node d l r ihl ihr =>
    intro c hc
    have i0 := hc.focus.2.1
    have hd0 : d.id ≠ 0 := fun x => hc.pos (by simp [ids_plug, x])
    have h1 := ihl (.L d r :: c) hc
    have h2 := ihr (.R d l :: c) hc
    refine .node hd0 ?_ ?_
    · rw [show (T.node d l r).rid = d.id from rfl, i0.left]; exact h1
    · rw [show (T.node d l r).rid = d.id from rfl, i0.right]; exact h2

theorem Ht.unique {s : St κ} {i a : Nat} (h : Ht s i a) : ∀ {b : Nat}, Ht s i b → a = b := by
  induction h with
  | zero => intro b hb; cases hb with
    | zero => rfl
    | node h0 _ _ => exact absurd rfl h0
  | node h0 _ _ ih1 ih2 =>
    intro b hb
    cases hb with
    | zero => exact absurd rfl h0
    | node _ h1 h2 => rw [ih1 h1, ih2 h2]

theorem index_avl {E : Env κ} {P : κ → Prop} {s : St κ} {l : List Nat} (h : Index E P s l) {i : Nat} (hi : Linked s i) :
    Ht s (s.h i).left (s.h i).lh ∧ Ht s (s.h i).right (s.h i).rh ∧ (s.h i).lh ≤ (s.h i).rh + 1 ∧ (s.h i).rh ≤ (s.h i).lh + 1 := by
  rcases h with ⟨he, rfl⟩ | ⟨t, hw, hne, hs, rfl⟩
  · rw [linked_empty he] at hi
    subst hi
    rw [he.left, he.right, he.lh, he.rh]
    exact ⟨.zero, .zero, by omega, by omega⟩
  · rw [linked_ids hw.rep] at hi
    obtain ⟨d, hd, rfl⟩ := List.mem_map.1 hi
    obtain ⟨c, l, r, rfl⟩ := exists_zipper t hd
    have i0 := hw.rep.focus.2.1
    have ha := (avl_plug.1 hw.avl).1
    rw [i0.left, i0.right, i0.lh, i0.rh, ha.1, ha.2.1]
    exact ⟨ht_sub l (.L d r :: c) hw.rep, ht_sub r (.R d l :: c) hw.rep, ha.2.2.1, ha.2.2.2.1⟩

theorem avl_height : ∀ (t : T κ), AVL t → 2 ^ (t.height / 2) ≤ t.nodes.length + 1 := by
  intro t
  induction t with
  | nil => intro _; simp
  | node d l r ihl ihr =>
    rintro ⟨_, _, h1, h2, h3, h4⟩
    have l1 := ihl h3
    have r1 := ihr h4
    simp only [height_node, nodes_node, List.length_append, List.length_cons]
    have pw : ∀ a b : Nat, a ≤ b → 2 ^ a ≤ 2 ^ b := fun a b h => Nat.pow_le_pow_right (by omega) h
    by_cases hm : max l.height r.height = 0
    · rw [hm]; simp
    · have e : (max l.height r.height + 1) / 2 = (max l.height r.height - 1) / 2 + 1 := by omega
      have p1 := pw ((max l.height r.height - 1) / 2) (l.height / 2) (by omega)
      have p2 := pw ((max l.height r.height - 1) / 2) (r.height / 2) (by omega)
      rw [e, Nat.pow_succ]
      omega

theorem index_height {E : Env κ} {P : κ → Prop} {s : St κ} {l : List Nat} (h : Index E P s l) : ∃ n, Ht s s.root n ∧ 2 ^ (n / 2) ≤ l.length + 1 := by
  rcases h with ⟨he, rfl⟩ | ⟨t, hw, hne, hs, rfl⟩
  · refine ⟨max 0 0 + 1, .node he.ne ?_ ?_, by simp⟩
    · rw [he.left]; exact .zero
    · rw [he.right]; exact .zero
  · refine ⟨t.height, ?_, ?_⟩
    · rw [hw.rep.root]; exact ht_sub t [] hw.rep
    · have := avl_height t hw.avl
      have := nodes_length_le hw.nok
      omega

end WG.TTree
