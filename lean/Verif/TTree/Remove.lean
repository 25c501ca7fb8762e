import Verif.TTree.Add
import Mathlib.Tactic.Set
/-!
# Removing a row: taking a node out of the tree
-/
namespace WG.TTree
variable {κ : Type}
open T

theorem unchain_h {s : St κ} {x p n : Nat} (hp : (s.h x).pred = p) (hn : (s.h x).succ = n) :
    (∀ i, (unchain s x).h i = { s.h i with
      pred := if i = n ∧ n ≠ 0 then p else (s.h i).pred
      succ := if i = p ∧ p ≠ 0 then n else (s.h i).succ }) ∧
    (unchain s x).root = s.root ∧ (unchain s x).maxN = (if n = 0 then p else s.maxN) ∧ (unchain s x).minN = (if p = 0 then n else s.minN) := by
  unfold unchain
  simp only [hp, hn]
  by_cases hn0 : n = 0
  · by_cases hp0 : p = 0
    · subst hn0; subst hp0; simp
    · subst hn0
      simp only [ne_eq, not_true_eq_false, if_false, hp0, not_false_eq_true, if_true, St.mod, and_false, and_true]
      intro i
      by_cases e : i = p
      · subst e; simp
      · simp [e]
  · by_cases hp0 : p = 0
    · subst hp0
      simp only [ne_eq, not_true_eq_false, if_false, hn0, not_false_eq_true, if_true, St.mod, and_false, and_true]
      intro i
      by_cases e : i = n
      · subst e; simp
      · simp [e]
    · simp only [ne_eq, hp0, if_false, hn0, not_false_eq_true, if_true, St.mod, and_true]
      intro i
      by_cases e : i = n <;> by_cases e2 : i = p
      · subst e; subst e2; simp
      · subst e; simp [e2]
      · subst e2; simp [e]
      · simp [e, e2]

/-- The tree without `x`, and the chain without `x`. -/
theorem unchain_rep {s s0 : St κ} {T0 T1 : T κ} {A B : List Nat} {x : Nat} (hr : Rep s T0) (hids : T0.ids = A ++ x :: B) (hids1 : T1.ids = A ++ B)
    (hl : ∀ i, (s0.h i).succ = (s.h i).succ ∧ (s0.h i).pred = (s.h i).pred) (hmin : s0.minN = s.minN) (hmax : s0.maxN = s.maxN)
    (ht : RepT s0.h 0 T1 ∧ s0.root = T1.rid) : Rep (unchain s0 x) T1 := by
  have hch := hr.chain
  have hnd := hr.nodup
  have hps := hr.pos
  have hmn := hr.minN
  have hmx := hr.maxN
  rw [hids] at hch hnd hps hmn hmx
  have hc0 : Dll s0.h 0 (A ++ x :: B) 0 := hch.congr (fun i _ => hl i)
  have hch' := Dll.append.1 hc0
  have hpx : (s0.h x).pred = A.getLastD 0 := hch'.2.1
  have hnx : (s0.h x).succ = B.headD 0 := hch'.2.2.1
  obtain ⟨u1, u2, u3, u4⟩ := unchain_h hpx hnx
  rw [List.nodup_append, List.nodup_cons] at hnd
  simp only [List.mem_append, List.mem_cons, not_or] at hps
  have hAB : (A ++ B).Nodup := List.nodup_append.2 ⟨hnd.1, hnd.2.1.2, fun a ha b hb => hnd.2.2 a ha b (by simp [hb])⟩
  have zA : A ≠ [] ↔ A.getLastD 0 ≠ 0 := ⟨fun h e => hps.1 (e ▸ last_mem h), fun h e => h (by rw [e]; rfl)⟩
  have zB : B ≠ [] ↔ B.headD 0 ≠ 0 := ⟨fun h e => hps.2.2 (e ▸ head_mem h), fun h e => h (by rw [e]; rfl)⟩
  have same : ∀ i, ((unchain s0 x).h i).Same (s0.h i) := by
    intro i; rw [u1 i]; exact ⟨rfl, rfl, rfl, rfl, rfl, rfl, rfl, rfl⟩
  refine ⟨ht.1.congr (fun i _ => same i), u2.trans ht.2, by rw [hids1]; exact hAB, by rw [hids1]; simp only [List.mem_append, not_or]; exact ⟨hps.1, hps.2.2⟩, ?_, ?_, ?_⟩
  · rw [hids1]
    refine hc0.remove hAB ?_ ?_
    · intro i _
      rw [u1 i]
      by_cases hq : i = A.getLastD 0 ∧ A ≠ []
      · rw [if_pos hq]; exact if_pos ⟨hq.1, zA.1 hq.2⟩
      · rw [if_neg hq]; exact if_neg (fun h => hq ⟨h.1, zA.2 h.2⟩)
    · intro i _
      rw [u1 i]
      by_cases hq : i = B.headD 0 ∧ B ≠ []
      · rw [if_pos hq]; exact if_pos ⟨hq.1, zB.1 hq.2⟩
      · rw [if_neg hq]; exact if_neg (fun h => hq ⟨h.1, zB.2 h.2⟩)
  · rw [u4, hids1, hmin, hmn]
    by_cases e : A = []
    · subst e
      rw [if_pos (show ([] : List Nat).getLastD 0 = 0 from rfl)]; rfl
    · rw [if_neg (zA.1 e), headD_append e, headD_append e]
  · rw [u3, hids1, hmax, hmx]
    by_cases e : B = []
    · subst e
      rw [if_pos (show ([] : List Nat).headD 0 = 0 from rfl), List.append_nil]
    · rw [if_neg (zB.1 e), getLastD_append e, getLastD_append (by simp), List.getLastD_cons, lastD_of_ne e]

/-- An empty leaf that is not the root. -/
theorem dropLeaf_rep {E : Env κ} {s : St κ} {f : Frame κ} {c : Ctx κ} {d : D κ} (hr : Rep s (plug (f :: c) (.node d .nil .nil))) :
    Rep (dropLeaf E s d.id).1 (plug (setHc (f :: c) 0) .nil) ∧ (dropLeaf E s d.id).2 = (f.d.id, d.id) := by
  have i0 := hr.focus.2.1
  have hp : (s.h d.id).parent = f.d.id := i0.parent
  have hf0 := hr.frame_ne
  obtain ⟨n1, n2, n3, n4⟩ := hr.nodup3
  have hd0 : d.id ≠ 0 := fun e => n2 (by simp [e])
  have hfd : f.d.id ≠ d.id := by
    intro e
    cases f with
    | L d1 r => exact n4 d1 (by simp [postN]) (by simpa [Frame.d] using e)
    | R d1 l => exact n3 d1 (by simp [preN]) (by simpa [Frame.d] using e)
  have hrn : s.root ≠ d.id := by
    rw [hr.root]
    intro e
    cases hT : plug (f :: c) (.node d .nil .nil) with
    | nil => rw [hT] at e; exact hd0 (by simpa using e.symm)
    | node dd ll rr =>
      -- the root has no parent
      have h0 := hr.tree
      rw [hT] at h0 e
      have : (s.h d.id).parent = 0 := by rw [← e]; exact h0.1.parent
      exact hf0 (hp ▸ this)
  have hids : (plug (f :: c) (.node d .nil .nil)).ids = (preN (f :: c)).map D.id ++ d.id :: (postN (f :: c)).map D.id := by simp [ids_plug]
  have hids1 : (plug (setHc (f :: c) 0) .nil).ids = (preN (f :: c)).map D.id ++ (postN (f :: c)).map D.id := by
    rw [ids_setHc]; simp [ids_plug]
  cases f with
  | L d1 r =>
    simp only [Frame.d] at hp hf0 hfd
    have hside := hr.frameL_left
    have e : dropLeaf E s d.id = (unchain (s.mod d1.id (fun n => { n with left := 0, lh := 0 })) d.id, d1.id, d.id) := by
      unfold dropLeaf
      have : d.id ≠ (unchain (s.mod d1.id (fun n => { n with left := 0, lh := 0 })) d.id).root := by
        rw [(unchain_h rfl rfl).2.1]; exact Ne.symm hrn
      simp only [hp, ne_eq, hf0, not_false_eq_true, if_true, hside, rid_node, this]
    rw [e]
    refine ⟨unchain_rep hr hids hids1 ?_ rfl rfl ?_, rfl⟩
    · intro i
      by_cases e : i = d1.id
      · subst e; rw [St.mod_self]; exact ⟨rfl, rfl⟩
      · rw [St.mod_ne _ _ e]; exact ⟨rfl, rfl⟩
    · obtain ⟨rC, -⟩ := hr.focus
      obtain ⟨j1, j2, j3⟩ := rC
      have hn5 := (Rep.nodup3 (c := c) (t := .node d1 (.node d .nil .nil) r) hr)
      have same : ∀ i, i ≠ d1.id → ((s.mod d1.id (fun n => { n with left := 0, lh := 0 })).h i).Same (s.h i) := by
        intro i hi; rw [St.mod_ne _ _ hi]; exact Nd.Same.refl _
      refine repT_plug.2 ⟨⟨?_, ?_, ?_⟩, trivial⟩
      · rw [show ({ d1 with lh := 0 } : D κ).id = d1.id from rfl, St.mod_self]
        exact ⟨j1.1, rfl, j1.3, rfl, j1.5, j1.6, j1.7, j1.8⟩
      · refine j2.congr (fun i hi => same i ?_)
        rintro rfl
        have := hn5.1
        simp at this
        exact this.2.1 hi
      · exact j3.congr (fun e he => same _ (fun h => hn5.2.2.1 e he (by simp [h]))) (fun e he => same _ (fun h => hn5.2.2.2 e he (by simp [h])))
  | R d1 l =>
    simp only [Frame.d] at hp hf0 hfd
    have hside := hr.frameR_left (by simp)
    rw [rid_node] at hside
    have e : dropLeaf E s d.id = (unchain (s.mod d1.id (fun n => { n with right := 0, rh := 0 })) d.id, d1.id, d.id) := by
      unfold dropLeaf
      have : d.id ≠ (unchain (s.mod d1.id (fun n => { n with right := 0, rh := 0 })) d.id).root := by
        rw [(unchain_h rfl rfl).2.1]; exact Ne.symm hrn
      simp only [hp, ne_eq, hf0, not_false_eq_true, if_true, hside, if_false, this]
    rw [e]
    refine ⟨unchain_rep hr hids hids1 ?_ rfl rfl ?_, rfl⟩
    · intro i
      by_cases e : i = d1.id
      · subst e; rw [St.mod_self]; exact ⟨rfl, rfl⟩
      · rw [St.mod_ne _ _ e]; exact ⟨rfl, rfl⟩
    · obtain ⟨rC, -⟩ := hr.focus
      obtain ⟨j1, j2, j3⟩ := rC
      have hn5 := (Rep.nodup3 (c := c) (t := .node d1 l (.node d .nil .nil)) hr)
      have same : ∀ i, i ≠ d1.id → ((s.mod d1.id (fun n => { n with right := 0, rh := 0 })).h i).Same (s.h i) := by
        intro i hi; rw [St.mod_ne _ _ hi]; exact Nd.Same.refl _
      refine repT_plug.2 ⟨⟨?_, ?_, ?_⟩, trivial⟩
      · rw [show ({ d1 with rh := 0 } : D κ).id = d1.id from rfl, St.mod_self]
        exact ⟨j1.1, j1.2, rfl, j1.4, rfl, j1.6, j1.7, j1.8⟩
      · refine j2.congr (fun i hi => same i ?_)
        rintro rfl
        have := hn5.1
        simp only [ids_node, List.nodup_append] at this
        exact this.2.2 d1.id hi d1.id (by simp) rfl
      · exact j3.congr (fun e he => same _ (fun h => hn5.2.2.1 e he (by simp [h]))) (fun e he => same _ (fun h => hn5.2.2.2 e he (by simp [h])))

/-- The state of an index without rows: the root node alone, without content. -/
structure Empty (E : Env κ) (s : St κ) : Prop where
  ne : s.root ≠ 0
  parent : (s.h s.root).parent = 0
  left : (s.h s.root).left = 0
  right : (s.h s.root).right = 0
  lh : (s.h s.root).lh = 0
  rh : (s.h s.root).rh = 0
  mn : (s.h s.root).mn = E.ill
  mx : (s.h s.root).mx = E.ill
  vals : (s.h s.root).vals = []
  succ : (s.h s.root).succ = 0
  pred : (s.h s.root).pred = 0
  minN : s.minN = s.root
  maxN : s.maxN = s.root

theorem dropLeaf_root {E : Env κ} {s : St κ} {d : D κ} (hr : Rep s (.node d .nil .nil)) (hl : d.lh = 0) (hrh : d.rh = 0) (hv : d.vals = []) :
    Empty E (dropLeaf E s d.id).1 ∧ (dropLeaf E s d.id).2 = (0, 0) ∧ (dropLeaf E s d.id).1.root = s.root := by
  have i0 := (Rep.focus (c := []) hr).2.1
  have hp : (s.h d.id).parent = 0 := i0.parent
  have hc := hr.chain
  simp only [ids_node, ids_nil, List.nil_append, Dll] at hc
  have hroot : s.root = d.id := hr.root
  have hd0 : d.id ≠ 0 := fun e => hr.pos (by simp [e])
  have e : dropLeaf E s d.id = ({ ({ s with maxN := 0, minN := 0 } : St κ).mod d.id (fun n => { n with mx := E.ill, mn := E.ill }) with maxN := d.id, minN := d.id }, 0, 0) := by
    unfold dropLeaf unchain
    simp [hp, hc.1, hc.2.1, hroot]
  rw [e]
  refine ⟨?_, rfl, rfl⟩
  constructor <;> simp [St.mod, hroot, hp, hc.1, hc.2.1, i0.left, i0.right, i0.lh, i0.rh, i0.vals, hl, hrh, hv, hd0]

theorem length_zero_iff {l : List Nat} : l.length = 0 ↔ l = [] := List.length_eq_zero_iff

/-- Merging a half-leaf with its left leaf. -/
theorem mergeLeaf_left {s : St κ} {c : Ctx κ} {d e : D κ} {K : Nat} (hr : Rep s (plug c (.node d (.node e .nil .nil) .nil)))
    (hc : AVLc c K) (h1 : e.lh = 0) (h2 : e.rh = 0) (hlen : d.vals.length + e.vals.length ≤ CAP) :
    (mergeLeaf s d.id).2 = (pid c, e.id, false) ∧ Rep (mergeLeaf s d.id).1
      (plug (setHc c 1) (.node { d with lh := 0, vals := e.vals ++ d.vals, mn := e.mn, mx := if d.vals.length = 0 then e.mx else d.mx } .nil .nil)) := by
  have i0 := hr.focus.2.1
  have ie := hr.focus.2.2.1.1
  obtain ⟨n1, n2, n3, n4⟩ := hr.nodup3
  have he0 : e.id ≠ 0 := fun x => n2 (by simp [x])
  have hde : d.id ≠ e.id := by
    intro x
    simp [x] at n1
  let d' : D κ := { d with lh := 0, vals := e.vals ++ d.vals, mn := e.mn, mx := if d.vals.length = 0 then e.mx else d.mx }
  let g : Nd κ → Nd κ := fun n => { n with vals := e.vals ++ d.vals, lh := 0, left := 0, mn := e.mn, mx := if d.vals.length = 0 then e.mx else n.mx }
  have hrep : Rep (unchain (s.mod d.id g) e.id) (plug c (.node d' .nil .nil)) := by
    refine unchain_rep (A := (preN c).map D.id) (B := d.id :: (postN c).map D.id) hr (by simp [ids_plug]) (by simp [ids_plug, d']) ?_ rfl rfl ?_
    · intro i
      by_cases x : i = d.id
      · subst x; rw [St.mod_self]; exact ⟨rfl, rfl⟩
      · rw [St.mod_ne _ _ x]; exact ⟨rfl, rfl⟩
    · obtain ⟨rC, -⟩ := hr.focus
      have same : ∀ i, i ≠ d.id → ((s.mod d.id g).h i).Same (s.h i) := by
        intro i hi; rw [St.mod_ne _ _ hi]; exact Nd.Same.refl _
      refine repT_plug.2 ⟨?_, ?_, trivial, trivial⟩
      · exact rC.congr (fun e he => same _ (fun h => n3 e he (by simp [h]))) (fun e he => same _ (fun h => n4 e he (by simp [h])))
      · rw [show d'.id = d.id from rfl, St.mod_self]
        exact ⟨i0.1, rfl, i0.3, rfl, i0.5, rfl, by simp only [g, d', i0.mx], rfl⟩
  have hpar : ((unchain (s.mod d.id g) e.id).h d.id).parent = pid c := hrep.focus.2.1.parent
  have heq : mergeLeaf s d.id = (if pid c ≠ 0 then
      if ((unchain (s.mod d.id g) e.id).h (pid c)).left = d.id then (unchain (s.mod d.id g) e.id).mod (pid c) (fun n => { n with lh := 1 })
      else (unchain (s.mod d.id g) e.id).mod (pid c) (fun n => { n with rh := 1 })
      else unchain (s.mod d.id g) e.id, pid c, e.id, false) := by
    unfold mergeLeaf
    have hl : (s.h d.id).left = e.id := i0.left
    have hrr : (s.h d.id).right = 0 := i0.right
    have hst : (if d.vals.length = 0 then (s.mod d.id (fun n => { n with vals := e.vals ++ d.vals, lh := 0, left := 0, mn := e.mn })).mod d.id (fun n => { n with mx := e.mx })
        else s.mod d.id (fun n => { n with vals := e.vals ++ d.vals, lh := 0, left := 0, mn := e.mn })) = s.mod d.id g := by
      by_cases x : d.vals.length = 0
      · simp only [x, if_true, St.mod_mod, g]
      · simp only [x, if_false, g]
    simp only [hl, hrr, he0, ne_eq, not_false_eq_true, not_true_eq_false, and_false, false_and, and_true, or_true, if_true, ie.lh, ie.rh, h1, h2, and_self, if_false, i0.vals, ie.vals,
      hlen, ie.mn, ie.mx, hst, hpar, false_or]
  rw [heq]
  refine ⟨rfl, ?_⟩
  cases c with
  | nil => exact hrep
  | cons f c =>
    have hrep2 := hrep
    rw [← setHc_of_AVLc hc] at hrep2
    have := hrep2.setFrame (by simp) 1
    have hf0 : pid (f :: c) ≠ 0 := hr.frame_ne
    simp only [ne_eq, hf0, not_false_eq_true, if_true]
    exact this

/-- Merging a half-leaf with its right leaf. -/
theorem mergeLeaf_right {s : St κ} {c : Ctx κ} {d e : D κ} {K : Nat} (hr : Rep s (plug c (.node d .nil (.node e .nil .nil))))
    (hc : AVLc c K) (h1 : e.lh = 0) (h2 : e.rh = 0) (hlen : d.vals.length + e.vals.length ≤ CAP) :
    (mergeLeaf s d.id).2 = (pid c, e.id, false) ∧ Rep (mergeLeaf s d.id).1
      (plug (setHc c 1) (.node { d with rh := 0, vals := d.vals ++ e.vals, mx := e.mx, mn := if d.vals.length = 0 then e.mn else d.mn } .nil .nil)) := by
  have i0 := hr.focus.2.1
  have ie := hr.focus.2.2.2.1
  obtain ⟨n1, n2, n3, n4⟩ := hr.nodup3
  have he0 : e.id ≠ 0 := fun x => n2 (by simp [x])
  have hde : d.id ≠ e.id := by
    intro x
    simp [x] at n1
  let d' : D κ := { d with rh := 0, vals := d.vals ++ e.vals, mx := e.mx, mn := if d.vals.length = 0 then e.mn else d.mn }
  let g : Nd κ → Nd κ := fun n => { n with vals := d.vals ++ e.vals, rh := 0, right := 0, mx := e.mx, mn := if d.vals.length = 0 then e.mn else n.mn }
  have hrep : Rep (unchain (s.mod d.id g) e.id) (plug c (.node d' .nil .nil)) := by
    refine unchain_rep (A := (preN c).map D.id ++ [d.id]) (B := (postN c).map D.id) hr (by simp [ids_plug]) (by simp [ids_plug, d']) ?_ rfl rfl ?_
    · intro i
      by_cases x : i = d.id
      · subst x; rw [St.mod_self]; exact ⟨rfl, rfl⟩
      · rw [St.mod_ne _ _ x]; exact ⟨rfl, rfl⟩
    · obtain ⟨rC, -⟩ := hr.focus
      have same : ∀ i, i ≠ d.id → ((s.mod d.id g).h i).Same (s.h i) := by
        intro i hi; rw [St.mod_ne _ _ hi]; exact Nd.Same.refl _
      refine repT_plug.2 ⟨?_, ?_, trivial, trivial⟩
      · exact rC.congr (fun e he => same _ (fun h => n3 e he (by simp [h]))) (fun e he => same _ (fun h => n4 e he (by simp [h])))
      · rw [show d'.id = d.id from rfl, St.mod_self]
        exact ⟨i0.1, i0.2, rfl, i0.4, rfl, by simp only [g, d', i0.mn], rfl, rfl⟩
  have hpar : ((unchain (s.mod d.id g) e.id).h d.id).parent = pid c := hrep.focus.2.1.parent
  have heq : mergeLeaf s d.id = (if pid c ≠ 0 then
      if ((unchain (s.mod d.id g) e.id).h (pid c)).left = d.id then (unchain (s.mod d.id g) e.id).mod (pid c) (fun n => { n with lh := 1 })
      else (unchain (s.mod d.id g) e.id).mod (pid c) (fun n => { n with rh := 1 })
      else unchain (s.mod d.id g) e.id, pid c, e.id, false) := by
    unfold mergeLeaf
    have hl : (s.h d.id).left = 0 := i0.left
    have hrr : (s.h d.id).right = e.id := i0.right
    have hst : (if d.vals.length = 0 then (s.mod d.id (fun n => { n with vals := d.vals ++ e.vals, rh := 0, right := 0, mx := e.mx })).mod d.id (fun n => { n with mn := e.mn })
        else s.mod d.id (fun n => { n with vals := d.vals ++ e.vals, rh := 0, right := 0, mx := e.mx })) = s.mod d.id g := by
      by_cases x : d.vals.length = 0
      · simp only [x, if_true, St.mod_mod, g]
      · simp only [x, if_false, g]
    simp only [hl, hrr, he0, ne_eq, not_false_eq_true, not_true_eq_false, and_false, false_and, and_true, or_true, true_or, if_true, ie.lh, ie.rh, h1, h2, and_self, if_false, i0.vals, ie.vals,
      hlen, ie.mn, ie.mx, hst, hpar, or_false]
  rw [heq]
  refine ⟨rfl, ?_⟩
  cases c with
  | nil => exact hrep
  | cons f c =>
    have hrep2 := hrep
    rw [← setHc_of_AVLc hc] at hrep2
    have := hrep2.setFrame (by simp) 1
    have hf0 : pid (f :: c) ≠ 0 := hr.frame_ne
    simp only [ne_eq, hf0, not_false_eq_true, if_true]
    exact this

theorem leaf_of_height {t : T κ} (ha : AVL t) (h : t.height ≤ 1) (hne : t ≠ .nil) : ∃ e : D κ, t = .node e .nil .nil ∧ e.lh = 0 ∧ e.rh = 0 := by
  cases t with
  | nil => exact absurd rfl hne
  | node e l r =>
    simp only [height_node] at h
    have hl := height_eq_zero (t := l) (by omega)
    have hr := height_eq_zero (t := r) (by omega)
    subst hl; subst hr
    exact ⟨e, rfl, ha.1, ha.2.1⟩

/-- What the end of a removal does. -/
structure Settled (E : Env κ) (s : St κ) (T0 : T κ) (x : St κ × List Nat × Int) : Prop where
  code : x.2.2 = 0
  res : (elems T0 = [] ∧ Empty E x.1 ∧ x.2.1 = [] ∧ T0.ids = [s.root] ∧ x.1.root = s.root) ∨
    ∃ t', Whole E x.1 t' ∧ t' ≠ .nil ∧ elems t' = elems T0 ∧ (x.2.1 ++ t'.ids).Perm T0.ids

/-- The upward loop from the parent of a subtree that lost one level. -/
theorem retrace_up {E : Env κ} {s : St κ} {f : Frame κ} {c : Ctx κ} {t : T κ} {k K : Nat} (hr : Rep s (plug (setHc (f :: c) t.height) t)) (ha : AVL t)
    (hK : t.height = K ∨ t.height + 1 = K) (hc : AVLc (f :: c) K) (hok : ∀ d ∈ (plug (f :: c) t).nodes, NOk E d) (hk : 2 * c.length + 1 < k) :
    ∃ t', Whole E (retraceDel E k s f.d.id) t' ∧ t'.ids = (plug (f :: c) t).ids ∧ elems t' = elems (plug (f :: c) t) := by
  obtain ⟨M, m1, m2⟩ := bal_up ha hK hc
  have hr2 := hr
  rw [show plug (setHc (f :: c) t.height) t = plug (setHc c M) ((f.setH t.height).fill t) by rw [setHc_of_AVLc m1]; rfl] at hr2
  obtain ⟨t', w1, w2, w3⟩ := retraceDel_res c hk hr2 m2 m1 (nok_setHc (c := f :: c) t.height hok)
  rw [show ((f.setH t.height).fill t).rid = f.d.id by cases f <;> rfl] at w1
  exact ⟨t', w1, w2.trans (ids_setHc (f :: c) t _), w3.trans (elems_setHc (f :: c) t _)⟩

theorem settle_res {E : Env κ} {s : St κ} {c : Ctx κ} {d : D κ} {l r : T κ} {k : Nat} (hr : Rep s (plug c (.node d l r))) (ha : AVL (plug c (.node d l r)))
    (hokc : ∀ e ∈ preN c ++ postN c, NOk E e) (hokl : ∀ e ∈ l.nodes, NOk E e) (hokr : ∀ e ∈ r.nodes, NOk E e)
    (hd : d.vals ≠ [] → NOk E d) (h2 : l ≠ .nil → r ≠ .nil → d.vals ≠ []) (hk : 2 * c.length + 1 < k) :
    Settled E s (plug c (.node d l r)) (settle E k s d.id) := by
  have i0 := hr.focus.2.1
  have hnl : l.rid = 0 ↔ l = .nil := rid_zero (c := .L d r :: c) hr
  have hnr : r.rid = 0 ↔ r = .nil := rid_zero (c := .R d l :: c) hr
  obtain ⟨a1, a2⟩ := avl_plug.1 ha
  obtain ⟨a3, a4, a5, a6, a7, a8⟩ := a1
  obtain ⟨n1, n2, n3, n4⟩ := hr.nodup3
  have hd0 : d.id ≠ 0 := fun x => n2 (by simp [x])
  -- nothing to do
  have stay : ∀ x : St κ × List Nat × Int, d.vals ≠ [] → x = (s, [], 0) → Settled E s (plug c (.node d l r)) x := by
    rintro x hv rfl
    refine ⟨rfl, .inr ⟨_, ⟨hr, ha, nok_plug.2 ⟨hokc, ?_⟩⟩, ?_, rfl, by simp⟩⟩
    · intro e he
      simp only [nodes_node, List.mem_append, List.mem_cons] at he
      rcases he with he | rfl | he
      · exact hokl e he
      · exact hd hv
      · exact hokr e he
    · intro e
      have : d ∈ (plug c (T.node d l r)).nodes := by simp [nodes_plug]
      rw [e] at this; simp at this
  have tne : ∀ {t' : T κ} {i : Nat}, i ∈ t'.ids → t' ≠ .nil := by rintro t' i h rfl; simp at h
  unfold settle
  have hcond : ((s.h d.id).left = 0 ∧ (s.h d.id).right = 0 ∧ (s.h d.id).vals.length = 0) ↔ (l = .nil ∧ r = .nil ∧ d.vals.length = 0) := by
    rw [i0.left, i0.right, i0.vals, hnl, hnr]
  dsimp only
  by_cases g : l = .nil ∧ r = .nil ∧ d.vals.length = 0
  · rw [if_pos (hcond.2 g)]
    obtain ⟨rfl, rfl, hv⟩ := g
    have hv' := length_zero_iff.1 hv
    cases c with
    | nil =>
      obtain ⟨q1, q2, q3⟩ := dropLeaf_root (E := E) hr (by simpa using a3) (by simpa using a4) hv'
      rw [q2]
      exact ⟨rfl, .inl ⟨by simp [plug, hv'], by simpa using q1, by simp, by rw [hr.root]; simp [plug], by simpa using q3⟩⟩
    | cons f c =>
      obtain ⟨q1, q2⟩ := dropLeaf_rep (E := E) hr
      rw [q2]
      have hf0 : f.d.id ≠ 0 := hr.frame_ne
      simp only [ne_eq, hf0, not_false_eq_true, if_true, hd0]
      have hok : ∀ e ∈ (plug (f :: c) .nil).nodes, NOk E e := nok_plug.2 ⟨hokc, by simp⟩
      obtain ⟨t', w1, w2, w3⟩ := retrace_up (t := .nil) (K := 1) (k := k) q1 trivial (.inr rfl) a2 hok (by simp only [List.length_cons] at hk; omega)
      refine ⟨rfl, .inr ⟨t', w1, ?_, ?_, ?_⟩⟩
      · refine tne (i := f.d.id) ?_
        rw [w2, ids_plug]
        cases f <;> simp [preN, postN, Frame.d]
      · rw [w3, elems_plug, elems_plug]; simp [hv']
      · rw [w2, ids_plug, ids_plug]
        simp only [ids_nil, ids_node, List.append_nil, List.nil_append, List.append_assoc, List.singleton_append]
        exact List.perm_middle.symm
  · rw [if_neg (fun h => g (hcond.1 h))]
    by_cases hl : l = .nil
    · by_cases hrr : r = .nil
      · -- a leaf with content
        have hv : d.vals ≠ [] := fun e => g ⟨hl, hrr, by simp [e]⟩
        refine stay _ hv ?_
        simp [mergeLeaf, i0.left, i0.right, hnl.2 hl, hnr.2 hrr]
      · subst hl
        obtain ⟨e, rfl, e1, e2⟩ := leaf_of_height a8 (by simpa using a6) hrr
        have ie := hr.focus.2.2.2.1
        have he0 : e.id ≠ 0 := fun x => n2 (by simp [x])
        have hoke := hokr e (by simp)
        by_cases hlen : d.vals.length + e.vals.length ≤ CAP
        · obtain ⟨q1, q2⟩ := mergeLeaf_right hr a2 e1 e2 hlen
          rw [q1]
          set d' : D κ := { d with rh := 0, vals := d.vals ++ e.vals, mx := e.mx, mn := if d.vals.length = 0 then e.mn else d.mn } with hd'
          have hokd : NOk E d' := by
            refine ⟨by simp [hd', hoke.ne], by simp [hd']; exact hlen, ?_, ?_⟩
            · simp only [hd']
              split_ifs with x
              · rw [length_zero_iff.1 x, List.nil_append]; exact hoke.mn
              · have hne : d.vals ≠ [] := fun y => x (by simp [y])
                rw [headD_append hne]; exact (hd hne).mn
            · simp only [hd']
              rw [getLastD_append hoke.ne]; exact hoke.mx
          have hav : AVL (T.node d' .nil .nil) := ⟨a3, rfl, by simp, by simp, trivial, trivial⟩
          have hok : ∀ x ∈ (plug c (T.node d' .nil .nil)).nodes, NOk E x := nok_plug.2 ⟨hokc, by simpa using hokd⟩
          have hel : elems (plug c (T.node d' .nil .nil)) = elems (plug c (T.node d .nil (.node e .nil .nil))) := by
            rw [elems_plug, elems_plug]; simp [hd']
          have hpm : (e.id :: (plug c (T.node d' .nil .nil)).ids).Perm (plug c (T.node d .nil (.node e .nil .nil))).ids := by
            rw [ids_plug, ids_plug]
            simp only [ids_nil, ids_node, List.nil_append, List.append_assoc, List.cons_append, hd']
            rw [show ((preN c).map D.id ++ d.id :: e.id :: (postN c).map D.id) = (((preN c).map D.id ++ [d.id]) ++ e.id :: (postN c).map D.id) by simp]
            refine (List.Perm.trans ?_ List.perm_middle.symm)
            simp
          simp only [Bool.false_eq_true, if_false, ne_eq, he0, not_false_eq_true, if_true]
          cases c with
          | nil =>
            simp only [pid, not_true_eq_false, if_false]
            exact ⟨rfl, .inr ⟨_, ⟨q2, hav, hok⟩, by simp [plug, setHc], hel, hpm⟩⟩
          | cons f c =>
            have hf0 : pid (f :: c) ≠ 0 := hr.frame_ne
            simp only [hf0, not_false_eq_true, if_true]
            obtain ⟨t', w1, w2, w3⟩ := retrace_up (t := T.node d' .nil .nil) (K := 2) (k := k) q2 hav (.inr rfl) (by simpa using a2) hok (by simp only [List.length_cons] at hk; omega)
            refine ⟨rfl, .inr ⟨t', w1, ?_, w3.trans hel, ?_⟩⟩
            · refine tne (i := d.id) ?_
              rw [w2, ids_plug]; simp [hd']
            · rw [w2]; exact hpm
        · have hv : d.vals ≠ [] := by
            intro x; rw [x] at hlen; have := hoke.cap; simp at hlen; omega
          refine stay _ hv ?_
          have h3 : (s.h d.id).right = e.id := i0.right
          simp [mergeLeaf, i0.left, h3, he0, ie.lh, ie.rh, e1, e2, i0.vals, ie.vals, hlen]
    · by_cases hrr : r = .nil
      · subst hrr
        obtain ⟨e, rfl, e1, e2⟩ := leaf_of_height a7 (by simpa using a5) hl
        have ie := hr.focus.2.2.1.1
        have he0 : e.id ≠ 0 := fun x => n2 (by simp [x])
        have hoke := hokl e (by simp)
        by_cases hlen : d.vals.length + e.vals.length ≤ CAP
        · obtain ⟨q1, q2⟩ := mergeLeaf_left hr a2 e1 e2 hlen
          rw [q1]
          set d' : D κ := { d with lh := 0, vals := e.vals ++ d.vals, mn := e.mn, mx := if d.vals.length = 0 then e.mx else d.mx } with hd'
          have hokd : NOk E d' := by
            refine ⟨by simp [hd', hoke.ne], by simp only [hd', List.length_append]; omega, ?_, ?_⟩
            · simp only [hd']
              rw [headD_append hoke.ne]; exact hoke.mn
            · simp only [hd']
              split_ifs with x
              · rw [length_zero_iff.1 x, List.append_nil]; exact hoke.mx
              · have hne : d.vals ≠ [] := fun y => x (by simp [y])
                rw [getLastD_append hne]; exact (hd hne).mx
          have hav : AVL (T.node d' .nil .nil) := ⟨rfl, a4, by simp, by simp, trivial, trivial⟩
          have hok : ∀ x ∈ (plug c (T.node d' .nil .nil)).nodes, NOk E x := nok_plug.2 ⟨hokc, by simpa using hokd⟩
          have hel : elems (plug c (T.node d' .nil .nil)) = elems (plug c (T.node d (.node e .nil .nil) .nil)) := by
            rw [elems_plug, elems_plug]; simp [hd']
          have hpm : (e.id :: (plug c (T.node d' .nil .nil)).ids).Perm (plug c (T.node d (.node e .nil .nil) .nil)).ids := by
            rw [ids_plug, ids_plug]
            simp only [ids_nil, ids_node, List.nil_append, List.append_assoc, List.cons_append, hd']
            exact List.perm_middle.symm
          simp only [Bool.false_eq_true, if_false, ne_eq, he0, not_false_eq_true, if_true]
          cases c with
          | nil =>
            simp only [pid, not_true_eq_false, if_false]
            exact ⟨rfl, .inr ⟨_, ⟨q2, hav, hok⟩, by simp [plug, setHc], hel, hpm⟩⟩
          | cons f c =>
            have hf0 : pid (f :: c) ≠ 0 := hr.frame_ne
            simp only [hf0, not_false_eq_true, if_true]
            obtain ⟨t', w1, w2, w3⟩ := retrace_up (t := T.node d' .nil .nil) (K := 2) (k := k) q2 hav (.inr rfl) (by simpa using a2) hok (by simp only [List.length_cons] at hk; omega)
            refine ⟨rfl, .inr ⟨t', w1, ?_, w3.trans hel, ?_⟩⟩
            · refine tne (i := d.id) ?_
              rw [w2, ids_plug]; simp [hd']
            · rw [w2]; exact hpm
        · have hv : d.vals ≠ [] := by
            intro x; rw [x] at hlen; have := hoke.cap; simp at hlen; omega
          refine stay _ hv ?_
          have h3 : (s.h d.id).left = e.id := i0.left
          simp [mergeLeaf, i0.right, h3, he0, ie.lh, ie.rh, e1, e2, i0.vals, ie.vals, hlen]
      · refine stay _ (h2 hl hrr) ?_
        have h3 : l.rid ≠ 0 := fun e => hl (hnl.1 e)
        have h4 : r.rid ≠ 0 := fun e => hrr (hnr.1 e)
        simp [mergeLeaf, i0.left, i0.right, h3, h4]

end WG.TTree
