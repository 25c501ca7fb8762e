import Verif.IndexMaint.Step2
/-! # Records that are filled after their creation; creation of indexes -/
namespace WG.Recs
open WG.TTree

variable {C : Prop} {h h' : Heap} {D : Word → Prop}

/-! ### wg_set_new_field -/

theorem back_zero (hI : Inv C h) {r : Word} {rc : Rec} (hr : h.recs r = some rc) (hn : ∀ p c, (view h).field p c ≠ some r) : rc.back = 0#64 := by
  obtain ⟨bl, b1, b2⟩ := hI.parents hr
  apply (Chain.nil_iff b1).2
  cases bl with
  | nil => rfl
  | cons a l =>
    exfalso
    have : 0 < nref h (carOf h a) r := by rw [← b2]; simp
    obtain ⟨rp, e1, e2⟩ := nref_pos this
    obtain ⟨j, hj⟩ := List.mem_iff_getElem?.1 e2
    exact hn _ j (field_mem.2 ⟨rp, e1, hj⟩)

/-- What wg_set_new_field does to the heap. -/
theorem setNew_heap (hI : Inv C h) {r : Word} {rc : Rec} {i : Nat} {v : Word} {cell : Option Word} (hr : h.recs r = some rc)
    (hget : rc.fields[i]? = some 0#64) (hv : SOK h v) (hcell : isRecVal v = true → ∃ q, cell = some q ∧ h.cells q = none ∧ q ≠ 0#64) :
    ∃ h3 h4, incRef (h.setFld r i v) v = some h3 ∧ h3.recs r = some { rc with fields := rc.fields.set i v } ∧
      (if isRecVal v then addBacklink h3 v r cell else some h3) = some h4 ∧ Inv C h4 ∧ Stored h h3 r i v ∧ Stored h h4 r i v ∧ SameStr h3 h4 ∧ Sub h h4 ∧
      (∀ w, LiveS h w → LiveS h4 w) ∧ (∀ o s, h4.lstrs o = some s → ∃ s0, h.lstrs o = some s0 ∧ s0.extra = s.extra) := by
  have hilt : i < rc.fields.length := (List.getElem?_eq_some_iff.1 hget).1
  obtain ⟨h2, e2, q2, i2⟩ := hI.str.hold (p := .fld r i) rfl (by
    intro x e
    simp only [fldF, hr, Option.bind_some, hget, Option.some.injEq] at e
    rw [← e]; left; decide) hv.live hv.loose
  have hr2 : h2.recs r = some rc := by rw [q2.recs]; exact hr
  have hst : Stored h (h2.setFld r i v) r i v := by
    refine SameRecs.stored (h1 := h2) ?_ (setFld_stored hr2 _ v)
    intro p; rw [q2.recs]; exact ⟨id, fun rc e => ⟨rc.back, e⟩⟩
  have g7 : (h2.setFld r i v).recs r = some { rc with fields := rc.fields.set i v } := by
    rw [setFld_recs hr2, upd_self]
  have g2 : SInv C (h2.setFld r i v) (fldF (h2.setFld r i v)) := by
    rw [hst.fldF hr hilt]
    exact SameStr.sinv (h := h2) (h' := h2.setFld r i v) ⟨rfl, rfl, rfl, rfl, rfl, rfl⟩ i2
  have g3 : BackOK (h2.setFld r i v) (forgetN h r 0#64) := by
    rw [show forgetN h r 0#64 = nref h by rw [forgetN, if_neg (by decide)]]
    refine hI.back.congr ?_ q2.cells (fun _ _ _ _ => rfl)
    intro c r' hc
    rw [setFld_recs hr2, q2.recs] at hc
    by_cases hcr : c = r
    · subst hcr
      rw [upd_self] at hc; cases hc
      exact ⟨rc, hr, rfl⟩
    · rw [upd_ne _ _ hcr] at hc
      exact ⟨r', hc, rfl⟩
  obtain ⟨h4, f1, f2, f3, f4, f5⟩ := hI.stored hr hget hv g2 g3 hst
    (cell := cell) (fun e => by
      obtain ⟨q, a, b, c⟩ := hcell e
      exact ⟨q, a, by have : (h2.setFld r i v).cells = h2.cells := rfl
                      rw [this, q2.cells]; exact b, c⟩)
  have hsub : Sub h h4 := by
    have : Sub h (h2.setFld r i v) := ⟨q2.shrunk.sstrs, q2.shrunk.dbls, q2.shrunk.ints, q2.shrunk.lstrs⟩
    exact this.trans f4.sub
  refine ⟨h2.setFld r i v, h4, by rw [incRef_setFld, e2]; rfl, g7, f1, f2, hst, f3, f4, hsub, ?_, ?_⟩
  · intro w hl
    have h1 : LiveS (h2.setFld r i v) w := q2.live hl
    obtain ⟨s1, s2, s3, s4, _, _⟩ := f4
    unfold LiveS at h1 ⊢
    rw [s1, s2, s3, s4]; exact h1
  · intro o s e
    obtain ⟨s0, a1, _, a2, _⟩ := hsub.lstrs o s e
    exact ⟨s0, a1, a2.symm⟩

/-- A new record `o` whose fields `todo` are still to be set with wg_set_new_field. -/
structure Pend (h : Heap) (x : List Idx) (o : Word) (todo : List Nat) : Prop where
  rcd : ∃ ro, h.recs o = some ro ∧ ro.special = false ∧ (∀ c ∈ todo, ro.fields[c]? = some 0#64) ∧
    ∀ e ∈ x, ro.fields.length ≤ e.col ∨ ∀ c ∈ e.fixed, ro.fields.length ≤ c
  mrec : ∀ e ∈ x, e.mrec ≠ o
  noref : ∀ p c, (view h).field p c ≠ some o

/-- Rows while a record is being filled: it is missing from the indexes on columns not yet set. -/
def Todo (o : Word) (todo : List Nat) (e : Idx) (q : Word) : Prop := q = o → e.col ∉ todo

theorem rowsTodoOk (h : Heap) (o : Word) (todo : List Nat) : Rows.Ok (fun e q => Row h e.col e.mrec q ∧ Todo o todo e q) := by
  intro e e' hk
  obtain ⟨a, b, _⟩ := Idx.key_inj hk
  simp only [a, b, Todo]

theorem Pend.key {x x' : List Idx} {o : Word} {todo : List Nat} (hp : Pend h x o todo) (hk : x'.map Idx.key = x.map Idx.key) : Pend h x' o todo := by
  obtain ⟨⟨ro, h1, h2, h3, h4⟩, hm, hn⟩ := hp
  refine ⟨⟨ro, h1, h2, h3, fun e he => ?_⟩, fun e he => ?_, hn⟩
  · obtain ⟨e0, g1, g2⟩ := mem_key hk he
    obtain ⟨a, b, c⟩ := Idx.key_inj g2
    rw [a, c]; exact h4 e0 g1
  · obtain ⟨e0, g1, g2⟩ := mem_key hk he
    rw [(Idx.key_inj g2).2.1]; exact hm e0 g1

theorem setNew_ix {s : Db (List Idx)} (hInv : Inv C s.h) (hg : AllGood s.h) (hcat : Cat s.h s.ix) {o : Word} {todo : List Nat} (hp : Pend s.h s.ix o todo)
    (hrows : St s.h s.ix (fun e q => Row s.h e.col e.mrec q ∧ Todo o todo e q)) {i : Nat} {v : Word} {cell : Option Word} (hi : i ∈ todo) (hv : SOK s.h v)
    (hgv : Good s.h v) (hvo : v ≠ o) (hcell : isRecVal v = true → ∃ a, cell = some a ∧ s.h.cells a = none ∧ a ≠ 0#64) :
    ∃ s', setNewField wgIx s o i v cell = some (s', 0) ∧ Inv C s'.h ∧ AllGood s'.h ∧ Cat s'.h s'.ix ∧ s'.ix.map Idx.key = s.ix.map Idx.key ∧
      Pend s'.h s'.ix o (todo.filter (· ≠ i)) ∧ St s'.h s'.ix (fun e q => Row s'.h e.col e.mrec q ∧ Todo o (todo.filter (· ≠ i)) e q) ∧
      Moves C s.h s'.h (· = o) ∧ Stored s.h s'.h o i v ∧ (∀ w, LiveS s.h w → LiveS s'.h w) ∧
      (∀ o s0, s'.h.lstrs o = some s0 → ∃ s1, s.h.lstrs o = some s1 ∧ s1.extra = s0.extra) := by
  obtain ⟨h, x⟩ := s
  simp only at *
  obtain ⟨⟨ro, hr, hsp, hz, hfix⟩, hmrec, hnoref⟩ := id hp
  have hget := hz i hi
  have hilt : i < ro.fields.length := (List.getElem?_eq_some_iff.1 hget).1
  obtain ⟨h3, h4, e1, e2, e3, f2, g4, f3, f4, hsub, hlive, hext⟩ := setNew_heap hInv hr hget hv hcell
  have hmv := stored_moves hInv f2 f3 hsub
  have hsame : SameRecs h3 h4 := g4.alike f3
  have hT := view_stored f3
  have hfld := stored_field f3
  have hnew : (view h4).field o i = some v := by
    rw [hT]
    simp [Table.field, Table.store, view, hr, List.getElem?_set_self hilt]
  have hg4 : AllGood h4 := by
    refine hmv.allGood hg fun p c w hw => ?_
    by_cases hpc : p = o ∧ c = i
    · right
      obtain ⟨rfl, rfl⟩ := hpc
      rw [hnew] at hw; cases hw
      exact hgv.congr (hmv.value v hv.live (hlive v hv.live))
    · left
      rw [hfld p c hpc] at hw
      exact ⟨p, c, hw⟩
  have hnoref4 : ∀ p c, (view h4).field p c ≠ some o := by
    intro p c hf
    by_cases hpc : p = o ∧ c = i
    · rw [hpc.1, hpc.2, hnew] at hf; cases hf; exact hvo rfl
    · rw [hfld p c hpc] at hf; exact hnoref p c hf
  have hcat4 : Cat h4 x := fun e he => hmv.idxOK (hcat e he) fun _ => hmrec e he
  obtain ⟨b4, hr4⟩ := (f3 o).2 ro hr
  simp only [if_true] at hr4
  generalize hro4 : ({ ro with back := b4, fields := ro.fields.set i v } : Rec) = ro4 at hr4
  have hlen4 : ro4.fields.length = ro.fields.length := by rw [← hro4]; simp
  have hsp4 : ro4.special = ro.special := by rw [← hro4]; rfl
  have hst : St h4 x (fun e q => Row h e.col e.mrec q ∧ Todo o todo e q) := by
    refine hmv.st hg4 hrows fun e he q hq => ?_
    obtain ⟨⟨rq, h1, h2, h3, h5⟩, hq⟩ := hq
    have hn : ¬ (q = o ∧ e.col = i) := by
      rintro ⟨a, b⟩
      exact hq a (by rw [b]; exact hi)
    exact ⟨_, field_col h1 h3, by rw [hfld q e.col hn]; exact field_col h1 h3, far_none hnoref (field_col h1 h3)⟩
  have hok4 := fun e he => hcat4 e he
  -- a hit is a hit of the column itself
  have hhit : ∀ e ∈ x, Hit h4 o i e → e.col = i := by
    intro e he hh
    obtain ⟨k1, rq, k2, k3, k4, k5⟩ := (hit_row (hok4 e he)).1 hh
    rcases k1 with k1 | k1
    · exact k1
    rw [hr4] at k2; cases k2
    rw [hlen4] at k4
    rcases hfix e he with k6 | k6
    · omega
    · have := k6 i k1; omega
  have hready : ∀ e ∈ x, Ready true (fun q => Row h e.col e.mrec q ∧ Todo o todo e q) (fun q => q = o ∧ Hit h4 o i e) := by
    rintro e he q ⟨rfl, hh⟩ ⟨_, hq⟩
    exact hq rfl (by rw [hhit e he hh]; exact hi)
  obtain ⟨t, ht⟩ : ∃ t, t = if touches wgIx x ro4 i then fieldIx (opIx true) h4 x o i else (x, 0) := ⟨_, rfl⟩
  obtain ⟨t1, t2, t3⟩ := touch_ok f2.str hg4 true (rowsTodoOk h o todo) hst hcat4 hr4 (by rw [hlen4]; exact hilt) hready ht
  have haft : afterStore wgIx h3 x o i v cell = some (⟨h4, t.1⟩, none) := by
    simp only [afterStore, e2]
    have hadd : wgIx.addField = fieldIx (opIx true) := rfl
    have htou : touches wgIx x { ro with fields := ro.fields.set i v } i = touches wgIx x ro4 i := by
      simp only [touches, hsp4]; rfl
    rw [hadd, ← fieldIx_same f4 hsame, htou, ← ht, if_neg (by rw [t1]; decide)]
    by_cases hvr : isRecVal v = true
    · rw [if_pos hvr] at e3 ⊢
      rw [e3]; rfl
    · rw [if_neg hvr] at e3 ⊢
      cases e3; rfl
  have hback : ro4.back = 0#64 := back_zero f2 hr4 hnoref4
  have hrun : setNewField wgIx ⟨h, x⟩ o i v cell = some (⟨h4, t.1⟩, 0) := by
    simp only [setNewField, hr]
    rw [if_neg (by omega), if_neg (by simp [List.getD_eq_getElem?_getD, hget])]
    simp only [Int.toNat_natCast, e1, haft, hr4]
    simp only [restoreParents, hback, if_true]
  have hcat5 := hcat4.key t2
  refine ⟨_, hrun, f2, hg4, hcat5, t2, Pend.key (x := x) ⟨⟨ro4, hr4, by rw [hsp4]; exact hsp, ?_, ?_⟩, hmrec, hnoref4⟩ t2, fun e he => (t3 e he).congr fun q => ?_,
    hmv, f3, hlive, hext⟩
  · intro c hc
    obtain ⟨c1, c2⟩ := List.mem_filter.1 hc
    rw [← hro4]
    simp only
    rw [List.getElem?_set_ne (fun e => by simp [e] at c2)]
    exact hz c c1
  · rw [hlen4]; exact hfix
  · obtain ⟨e0, g1, g2⟩ := mem_key t2 he
    obtain ⟨a, b, c⟩ := Idx.key_inj g2
    have hok : IdxOK h e := (hcat e0 g1).key g2
    have hmr : e.mrec ≠ o := by rw [b]; exact hmrec e0 g1
    simp only [Change, if_true]
    by_cases hq : q = o
    · subst hq
      have hfixe : e.col < ro.fields.length → i ∉ e.fixed := by
        intro hl hf
        rcases hfix e0 g1 with k | k
        · rw [← a] at k; omega
        · have := k i (by rw [← c]; exact hf); omega
      simp only [true_and, Todo, forall_const]
      rw [hit_row (hcat5 e he)]
      have hrow : e.col ≠ i → (Row h4 e.col e.mrec q ↔ Row h e.col e.mrec q) := by
        intro hne
        simp only [Row, hr, hr4, Option.some.injEq, exists_eq_left', hsp4, hlen4]
        refine and_congr_right fun _ => and_congr_right fun hl => hmv.matches hok (fun _ => hmr) hr hr4 fun c hc => ?_
        rw [← hro4]
        simp only
        rw [List.getElem?_set_ne (fun e => hfixe hl (by rw [e]; exact hc))]
      by_cases hci : e.col = i
      · constructor
        · rintro (⟨_, k⟩ | ⟨_, k⟩)
          · exact absurd (by rw [hci]; exact hi) k
          · exact ⟨k, by simp [hci]⟩
        · rintro ⟨k, _⟩
          exact Or.inr ⟨Or.inl hci, k⟩
      · have hmem : e.col ∉ todo.filter (· ≠ i) ↔ e.col ∉ todo := by simp [hci]
        rw [hmem, hrow hci]
        constructor
        · rintro (k | ⟨k1, k2⟩)
          · exact k
          · exfalso
            obtain ⟨rq, r1, _, r3, _⟩ := k2
            rw [hr] at r1; cases r1
            rcases k1 with k1 | k1
            · exact hci k1
            · exact hfixe r3 k1
        · exact Or.inl
    · simp only [hq, false_and, or_false, Todo, false_implies, and_true]
      exact (hmv.row hok (fun _ => hmr) hq).symm

end WG.Recs
