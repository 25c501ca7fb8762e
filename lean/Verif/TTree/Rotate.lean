import Verif.TTree.Rep
/-!
# Rotations
-/
namespace WG.TTree
variable {κ : Type}
open T

def Frame.setH : Frame κ → Nat → Frame κ
  | .L d r, k => .L { d with lh := k } r
  | .R d l, k => .R { d with rh := k } l

/-- The height of the hole recorded in the innermost frame. -/
def setHc : Ctx κ → Nat → Ctx κ
  | [], _ => []
  | f :: c, k => f.setH k :: c

theorem setHc_pid (c : Ctx κ) (k : Nat) : pid (setHc c k) = pid c := by
  cases c with
  | nil => rfl
  | cons f c => cases f <;> rfl

theorem setHc_ids (c : Ctx κ) (k : Nat) : (preN (setHc c k)).map D.id = (preN c).map D.id ∧ (postN (setHc c k)).map D.id = (postN c).map D.id := by
  cases c with
  | nil => exact ⟨rfl, rfl⟩
  | cons f c => cases f <;> simp [setHc, Frame.setH, preN, postN]

/-- `s'` agrees with `s` on the ids of the context and on all chain links, root and ends. -/
structure Outside (s s' : St κ) (ids : List Nat) : Prop where
  out : ∀ i, i ∉ ids → s'.h i = s.h i
  succ : ∀ i, (s'.h i).succ = (s.h i).succ
  pred : ∀ i, (s'.h i).pred = (s.h i).pred
  root : s'.root = s.root
  minN : s'.minN = s.minN
  maxN : s'.maxN = s.maxN

theorem gpFix_rep {s s' : St κ} {c : Ctx κ} {A t' : T κ} {p' : Nat} (hr : Rep s (plug c A)) (hA : A ≠ .nil) (ht : t' ≠ .nil)
    (ho : Outside s s' A.ids) (hT : RepT s'.h p' t') (hi : t'.ids = A.ids) :
    Rep (gpFix s' (pid c) A.rid t'.rid) (plug (setHc c (max (s'.h t'.rid).lh (s'.h t'.rid).rh + 1)) t') := by
  obtain ⟨rC, rA⟩ := hr.focus
  have hnd := hr.nodup
  rw [ids_plug] at hnd
  have hpos := hr.pos
  rw [ids_plug] at hpos
  have hidsEq : (plug (setHc c (max (s'.h t'.rid).lh (s'.h t'.rid).rh + 1)) t').ids = (plug c A).ids := by
    rw [ids_plug, ids_plug, (setHc_ids c _).1, (setHc_ids c _).2, hi]
  have hrmem : t'.rid ∈ t'.ids := rid_mem ht
  have hAmem : A.rid ∈ A.ids := rid_mem hA
  have hndA : A.ids.Nodup := by
    have := hnd
    simp only [List.nodup_append] at this
    exact this.1.2.1
  -- everything but the tree
  have hchain : ∀ (h' : Nat → Nd κ), (∀ i, (h' i).succ = (s'.h i).succ ∧ (h' i).pred = (s'.h i).pred) → Dll h' 0 (plug (setHc c (max (s'.h t'.rid).lh (s'.h t'.rid).rh + 1)) t').ids 0 := by
    intro h' he
    rw [hidsEq]
    exact hr.chain.congr (fun i _ => ⟨(he i).1.trans (ho.succ i), (he i).2.trans (ho.pred i)⟩)
  cases c with
  | nil =>
    have e : gpFix s' (pid ([] : Ctx κ)) A.rid t'.rid = { s'.mod t'.rid (fun n => { n with parent := 0 }) with root := t'.rid } := by simp [gpFix, pid]
    rw [e]
    refine ⟨?_, rfl, by rw [hidsEq]; exact hr.nodup, by rw [hidsEq]; exact hr.pos, ?_, ?_, ?_⟩
    · refine hT.reparent (by rw [hi]; exact hndA) ?_ ?_
      · intro i _ hne
        simp only [St.mod, if_neg hne]
        exact Nd.Same.refl _
      · intro _
        simp only [St.mod, if_true]
        exact Nd.Same.refl _
    · refine hchain _ ?_
      intro i
      simp only [St.mod]
      split_ifs with h
      · rw [h]; exact ⟨rfl, rfl⟩
      · exact ⟨rfl, rfl⟩
    · show s'.minN = _
      rw [hidsEq, ho.minN]; exact hr.minN
    · show s'.maxN = _
      rw [hidsEq, ho.maxN]; exact hr.maxN
  | cons f c =>
    have hgp : f.d.id ∉ A.ids := by
      intro hm
      cases f <;> simp only [preN, postN, Frame.d, List.map_append, List.map_cons, List.map_nil, List.cons_append, List.nodup_append, List.mem_append, List.mem_cons] at hnd hm
      · exact hnd.2.2 _ (.inr hm) _ (.inl rfl) rfl
      · exact hnd.1.2.2 _ (.inr (.inr (.inl rfl))) _ hm rfl
    have hgp0 : f.d.id ≠ 0 := by
      intro h0
      refine hpos ?_
      cases f <;> simp [preN, postN, Frame.d] at h0 ⊢ <;> simp [h0]
    have hgr : f.d.id ≠ t'.rid := fun h => hgp (by rw [← hi, h]; exact hrmem)
    have hout : s'.h f.d.id = s.h f.d.id := ho.out _ hgp
    -- side of the hole
    have hside : (s.h f.d.id).left = A.rid ↔ ∃ d r, f = .L d r := by
      cases f with
      | L d r => simp [Frame.d, rC.1.left]
      | R d l =>
        simp only [Frame.d, rC.1.left, reduceCtorEq, exists_false, iff_false]
        intro hl
        cases l with
        | nil => exact hpos (by simp only [rid_nil] at hl; simp [hl, hAmem])
        | node d' l1 l2 =>
          simp only [preN, List.map_append, List.map_cons, List.nodup_append, List.mem_append, nodes_node, rid_node] at hnd hl
          exact hnd.1.2.2 d'.id (by simp) A.rid hAmem hl
    -- the new state
    have key : ∀ (g : Nd κ → Nd κ), (∀ n, (g n).succ = n.succ ∧ (g n).pred = n.pred) →
        ((g (s'.h f.d.id)).Is (pid c) (match f with | .L _ _ => t'.rid | .R _ l => l.rid) (match f with | .L _ r => r.rid | .R _ _ => t'.rid)
          (f.setH (max (s'.h t'.rid).lh (s'.h t'.rid).rh + 1)).d) →
        Rep ((s'.mod t'.rid (fun n => { n with parent := f.d.id })).mod f.d.id g) (plug (setHc (f :: c) (max (s'.h t'.rid).lh (s'.h t'.rid).rh + 1)) t') := by
      intro g hg his
      have ht : RepC ((s'.mod t'.rid (fun n => { n with parent := f.d.id })).mod f.d.id g).h s'.root (setHc (f :: c) (max (s'.h t'.rid).lh (s'.h t'.rid).rh + 1)) t'.rid ∧
          RepT ((s'.mod t'.rid (fun n => { n with parent := f.d.id })).mod f.d.id g).h (pid (setHc (f :: c) (max (s'.h t'.rid).lh (s'.h t'.rid).rh + 1))) t' := by
        have hsame : ∀ i, i ≠ f.d.id → i ∉ A.ids → ((s'.mod t'.rid (fun n => { n with parent := f.d.id })).mod f.d.id g).h i = s.h i := by
          intro i h1 h2
          have h3 : i ≠ t'.rid := fun e => h2 (by rw [← hi, e]; exact hrmem)
          simp only [St.mod, if_neg h1, if_neg h3]
          exact ho.out i h2
        have hnew : ((s'.mod t'.rid (fun n => { n with parent := f.d.id })).mod f.d.id g).h f.d.id = g (s'.h f.d.id) := by
          simp only [St.mod, if_true, if_neg hgr]
        constructor
        · cases f with
          | L d r =>
            simp only [Frame.d] at hsame hnew his hgp
            simp only [preN, postN, List.map_append, List.map_cons, List.cons_append, List.nodup_append, List.mem_append, List.mem_cons] at hnd
            refine ⟨?_, ?_, ?_⟩
            · show Nd.Is (((s'.mod t'.rid (fun n => { n with parent := d.id })).mod d.id g).h d.id) _ _ _ _
              rw [hnew]; exact his
            · refine rC.2.1.congr ?_
              intro i hi'
              have : ((s'.mod t'.rid (fun n => { n with parent := d.id })).mod d.id g).h i = s.h i := by
                refine hsame i ?_ ?_
                · rintro rfl
                  have := hnd.2.1
                  simp only [List.nodup_cons, List.mem_append] at this
                  exact this.1 (.inl hi')
                · intro hm
                  exact hnd.2.2 i (.inr hm) i (.inr (.inl hi')) rfl
              exact this ▸ Nd.Same.refl _
            · have : RepC s.h s'.root c d.id := by rw [ho.root]; exact rC.2.2
              refine this.congr ?_ ?_
              · intro e he
                have : ((s'.mod t'.rid (fun n => { n with parent := d.id })).mod d.id g).h e.id = s.h e.id := by
                  have hm : e.id ∈ (preN c).map D.id := List.mem_map_of_mem he
                  exact hsame _ (fun h => hnd.2.2 _ (.inl hm) _ (.inl h) rfl) (fun h => hnd.1.2.2 _ hm _ h rfl)
                exact this ▸ Nd.Same.refl _
              · intro e he
                have : ((s'.mod t'.rid (fun n => { n with parent := d.id })).mod d.id g).h e.id = s.h e.id := by
                  have hm : e.id ∈ (postN c).map D.id := List.mem_map_of_mem he
                  refine hsame _ ?_ (fun h => hnd.2.2 _ (.inr h) _ (.inr (.inr hm)) rfl)
                  intro h
                  have := hnd.2.1
                  simp only [List.nodup_cons, List.mem_append] at this
                  exact this.1 (.inr (h ▸ hm))
                exact this ▸ Nd.Same.refl _
          | R d l =>
            simp only [Frame.d] at hsame hnew his hgp
            simp only [preN, postN, List.map_append, List.map_cons, List.map_nil, List.nodup_append, List.mem_append, List.mem_singleton] at hnd
            refine ⟨?_, ?_, ?_⟩
            · show Nd.Is (((s'.mod t'.rid (fun n => { n with parent := d.id })).mod d.id g).h d.id) _ _ _ _
              rw [hnew]; exact his
            · refine rC.2.1.congr ?_
              intro i hi'
              have : ((s'.mod t'.rid (fun n => { n with parent := d.id })).mod d.id g).h i = s.h i := by
                refine hsame i ?_ ?_
                · exact hnd.1.1.2.1.2.2 i hi' d.id rfl
                · intro hm
                  exact hnd.1.2.2 i (.inr (.inl hi')) i hm rfl
              exact this ▸ Nd.Same.refl _
            · have : RepC s.h s'.root c d.id := by rw [ho.root]; exact rC.2.2
              refine this.congr ?_ ?_
              · intro e he
                have : ((s'.mod t'.rid (fun n => { n with parent := d.id })).mod d.id g).h e.id = s.h e.id := by
                  have hm : e.id ∈ (preN c).map D.id := List.mem_map_of_mem he
                  exact hsame _ (fun h => hnd.1.1.2.2 _ hm _ (.inr h) rfl) (fun h => hnd.1.2.2 _ (.inl hm) _ h rfl)
                exact this ▸ Nd.Same.refl _
              · intro e he
                have : ((s'.mod t'.rid (fun n => { n with parent := d.id })).mod d.id g).h e.id = s.h e.id := by
                  have hm : e.id ∈ (postN c).map D.id := List.mem_map_of_mem he
                  exact hsame _ (fun h => hnd.2.2 _ (.inl (.inr (.inr h))) _ hm rfl) (fun h => hnd.2.2 _ (.inr h) _ hm rfl)
                exact this ▸ Nd.Same.refl _
        · rw [setHc_pid]
          refine hT.reparent (by rw [hi]; exact hndA) ?_ ?_
          · intro i hm hne
            have : i ≠ f.d.id := fun e => hgp (by rw [← hi, ← e]; exact hm)
            simp only [St.mod, if_neg this, if_neg hne]
            exact Nd.Same.refl _
          · intro _
            simp only [St.mod, if_neg (Ne.symm hgr), if_true]
            exact Nd.Same.refl _
      obtain ⟨q1, q2⟩ := repT_plug.2 ht
      refine ⟨q1, q2, by rw [hidsEq]; exact hr.nodup, by rw [hidsEq]; exact hr.pos, ?_, ?_, ?_⟩
      · refine hchain _ ?_
        intro i
        by_cases h1 : i = f.d.id
        · rw [h1, St.mod_self, St.mod_ne _ _ hgr]; exact hg _
        · rw [St.mod_ne _ _ h1]
          by_cases h2 : i = t'.rid
          · rw [h2, St.mod_self]; exact ⟨rfl, rfl⟩
          · rw [St.mod_ne _ _ h2]; exact ⟨rfl, rfl⟩
      · show s'.minN = _
        rw [hidsEq, ho.minN]; exact hr.minN
      · show s'.maxN = _
        rw [hidsEq, ho.maxN]; exact hr.maxN
    have e : gpFix s' (pid (f :: c)) A.rid t'.rid =
        if (s.h f.d.id).left = A.rid then (s'.mod t'.rid (fun n => { n with parent := f.d.id })).mod f.d.id (fun n => { n with left := t'.rid, lh := max (s'.h t'.rid).lh (s'.h t'.rid).rh + 1 })
        else (s'.mod t'.rid (fun n => { n with parent := f.d.id })).mod f.d.id (fun n => { n with right := t'.rid, rh := max (s'.h t'.rid).lh (s'.h t'.rid).rh + 1 }) := by
      unfold gpFix
      rw [if_neg (show pid (f :: c) ≠ 0 from hgp0)]
      simp only [pid, St.mod_self, St.mod_ne _ _ hgr, hout]
    rw [e]
    cases f with
    | L d r =>
      rw [if_pos (hside.2 ⟨d, r, rfl⟩)]
      refine key _ (fun _ => ⟨rfl, rfl⟩) ?_
      have hI := rC.1
      simp only [Frame.d] at hout
      simp only [Frame.d, Frame.setH, hout]
      exact ⟨hI.parent, rfl, hI.right, rfl, hI.rh, hI.mn, hI.mx, hI.vals⟩
    | R d l =>
      rw [if_neg (fun h => by simpa using hside.1 h)]
      refine key _ (fun _ => ⟨rfl, rfl⟩) ?_
      have hI := rC.1
      simp only [Frame.d] at hout
      simp only [Frame.d, Frame.setH, hout]
      exact ⟨hI.parent, hI.left, rfl, hI.lh, rfl, hI.mn, hI.mx, hI.vals⟩

end WG.TTree
