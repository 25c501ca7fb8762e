import Verif.Records.Ops
/-! # The other operations keep the invariant -/
namespace WG.Recs

variable {C : Prop} {h h' : Heap} {ι : Type}

theorem setNewField_ok (X : Ix ι) {s : Db ι} (hI : Inv C s.h) {r : Word} {i : Int} {v : Word} {cell : Option Word}
    (hrec : ∃ rc, s.h.recs r = some rc) (hv : SOK s.h v) (hcell : isRecVal v = true → ∃ q, cell = some q ∧ s.h.cells q = none ∧ q ≠ 0#64)
    (hix : isRecVal v = true → ∀ s', setNewField X s r i v cell = some (s', -3) → s'.h = s.h) :
    ∃ s' code, setNewField X s r i v cell = some (s', code) ∧ SetOut C s s' r i v code ∧
      (code = -2 ↔ ∃ rc, s.h.recs r = some rc ∧ (i < 0 ∨ (rc.fields.length : Int) ≤ i ∨ rc.fields[i.toNat]? ≠ some 0#64)) := by
  obtain ⟨rc, hr⟩ := hrec
  simp only [setNewField, hr]
  by_cases hi : i < 0 ∨ (rc.fields.length : Int) ≤ i
  · rw [if_pos hi]
    refine ⟨s, -2, rfl, .refused rfl rfl, ?_⟩
    simp only [true_iff]
    exact ⟨rc, rfl, by tauto⟩
  rw [if_neg hi]
  have hilt : i.toNat < rc.fields.length := by omega
  have hget : rc.fields[i.toNat]? = some (rc.fields.getD i.toNat 0#64) := by
    rw [List.getD_eq_getElem?_getD, List.getElem?_eq_getElem hilt]; rfl
  generalize hold : rc.fields.getD i.toNat 0#64 = old at hget
  by_cases hov : old = 0#64
  swap
  · rw [if_pos hov]
    refine ⟨s, -2, rfl, .refused rfl rfl, ?_⟩
    simp only [true_iff]
    exact ⟨rc, rfl, Or.inr (Or.inr (by rw [hget]; simpa using hov))⟩
  rw [if_neg (by simp [hov])]
  subst hov
  have hn2 : ∀ code : Int, code ≠ -2 → (code = -2 ↔ ∃ rc', some rc = some rc' ∧ (i < 0 ∨ (rc'.fields.length : Int) ≤ i ∨
      rc'.fields[i.toNat]? ≠ some 0#64)) := by
    intro code hc
    refine ⟨fun e => absurd e hc, ?_⟩
    rintro ⟨rc', e, h2⟩
    cases e
    rcases h2 with h2 | h2 | h2
    · exact absurd (Or.inl h2) hi
    · exact absurd (Or.inr h2) hi
    · exact absurd hget h2
  obtain ⟨h2, e2, q2, i2⟩ := hI.str.hold (p := .fld r i.toNat) rfl (by
    intro x e
    simp only [fldF, hr, Option.bind_some, hget, Option.some.injEq] at e
    rw [← e]; left; decide) hv.live hv.loose
  rw [incRef_setFld, e2]
  simp only [Option.map_some]
  have hr2 : h2.recs r = some rc := by rw [q2.recs]; exact hr
  have hst : Stored s.h (h2.setFld r i.toNat v) r i.toNat v := by
    refine SameRecs.stored (h1 := h2) ?_ (setFld_stored hr2 _ v)
    intro p; rw [q2.recs]; exact ⟨id, fun rc e => ⟨rc.back, e⟩⟩
  have g7 : (h2.setFld r i.toNat v).recs r = some { rc with fields := rc.fields.set i.toNat v } := by
    rw [setFld_recs hr2, upd_self]
  have g2 : SInv C (h2.setFld r i.toNat v) (fldF (h2.setFld r i.toNat v)) := by
    rw [hst.fldF hr hilt]
    exact SameStr.sinv (h := h2) (h' := h2.setFld r i.toNat v) ⟨rfl, rfl, rfl, rfl, rfl, rfl⟩ i2
  have hforg : forgetN s.h r 0#64 = nref s.h := by
    rw [forgetN, if_neg (by decide)]
  have g3 : BackOK (h2.setFld r i.toNat v) (forgetN s.h r 0#64) := by
    rw [hforg]
    refine hI.back.congr ?_ q2.cells (fun _ _ _ _ => rfl)
    intro c r' hc
    rw [setFld_recs hr2, q2.recs] at hc
    by_cases hcr : c = r
    · subst hcr
      rw [upd_self] at hc; cases hc
      exact ⟨rc, hr, rfl⟩
    · rw [upd_ne _ _ hcr] at hc
      exact ⟨r', hc, rfl⟩
  obtain ⟨h4, f1, f2, f3, f4, f5⟩ := hI.stored hr hget hv g2 g3 hst
    (cell := cell) (fun e => by
      obtain ⟨q, a, b, c⟩ := hcell e
      exact ⟨q, a, by have : (h2.setFld r i.toNat v).cells = h2.cells := rfl
                      rw [this, q2.cells]; exact b, c⟩)
  obtain ⟨rc4, f6, f7⟩ := f5 _ g7
  have hsub : Sub s.h h4 := by
    have : Sub s.h (h2.setFld r i.toNat v) := ⟨q2.shrunk.sstrs, q2.shrunk.dbls, q2.shrunk.ints, q2.shrunk.lstrs⟩
    exact this.trans f4.sub
  have hlen : h4.hlen = s.h.hlen := f4.2.2.2.2.2.trans q2.hlen
  have haft : ∃ s2 c2, afterStore X (h2.setFld r i.toNat v) s.ix r i.toNat v cell = some (s2, c2) ∧
      ((c2 = some (-3) ∧ s2.h = h2.setFld r i.toNat v ∧ isRecVal v = false) ∨ (c2 = none ∧ s2.h = h4)) := by
    simp only [afterStore, g7]
    generalize hy : (if touches X s.ix { rc with fields := rc.fields.set i.toNat v } i.toNat = true then
      X.addField (h2.setFld r i.toNat v) s.ix r i.toNat else (s.ix, 0)) = y
    by_cases hy2 : y.2 < -1
    · rw [if_pos hy2]
      refine ⟨_, _, rfl, Or.inl ⟨rfl, rfl, ?_⟩⟩
      cases hv : isRecVal v with
      | false => rfl
      | true =>
        exfalso
        have hq : setNewField X s r i v cell = some (⟨h2.setFld r i.toNat v, y.1⟩, -3) := by
          simp only [setNewField, hr]
          rw [if_neg hi, hold, if_neg (by simp), incRef_setFld, e2]
          simp only [Option.map_some, afterStore, g7]
          rw [hy, if_pos hy2]
        exact hst.ne hr hget (by rintro rfl; exact absurd hv (by decide)) (hix hv _ hq)
    · rw [if_neg hy2]
      by_cases hv : isRecVal v = true
      · rw [if_pos hv] at f1 ⊢
        rw [f1]
        exact ⟨_, _, rfl, Or.inr ⟨rfl, rfl⟩⟩
      · rw [if_neg hv] at f1 ⊢
        cases f1
        exact ⟨_, _, rfl, Or.inr ⟨rfl, rfl⟩⟩
  obtain ⟨s2, c2, e2, hc2⟩ := haft
  rw [e2]
  rcases hc2 with ⟨rfl, hs2, hv⟩ | ⟨rfl, hs2⟩
  · rw [if_neg (by simp [hv])] at f1
    cases f1
    exact ⟨s2, -3, rfl, .stored (by omega) (by rw [hs2]; exact f3) (by rw [hs2]; exact hsub) (by rw [hs2]; exact hlen)
      (by rw [hs2]; exact f2) (by simp), hn2 _ (by decide)⟩
  · simp only [hs2, f6]
    have hfin : ∃ s' code, restoreParents X h4 s2.ix r rc4.back = some (s', code) ∧ s'.h = h4 ∧ (code = 0 ∨ code = -4) := by
      unfold restoreParents
      by_cases hb : rc4.back = 0#64
      · rw [if_pos hb]; exact ⟨_, _, rfl, rfl, Or.inl rfl⟩
      · rw [if_neg hb]
        obtain ⟨z, e⟩ := visitAll_ok f2 X (X.addField h4) 6 f6 hb s2.ix
        rw [e]
        refine ⟨_, _, rfl, rfl, ?_⟩
        split_ifs <;> simp
    obtain ⟨s', code', q1, q2, q3⟩ := hfin
    refine ⟨s', code', q1, .stored (by omega) (by rw [q2]; exact f3) (by rw [q2]; exact hsub) (by rw [q2]; exact hlen)
      (by rw [q2]; exact f2) (by omega), hn2 _ (by omega)⟩

/-! ## Creation -/

/-- The records of `h` and a new one. -/
theorem Inv.create (hI : Inv C h) {o bits : Word} {n : Nat} (ho : h.recs o = none) (hz : isRecVal o = true) :
    Inv C { h with recs := upd h.recs o (some ⟨bits, 0#64, List.replicate n 0#64⟩) } := by
  have hnoref : ∀ p, nref h p o = 0 := by
    intro p
    by_contra hne
    obtain ⟨rp, e1, e2⟩ := nref_pos (Nat.pos_of_ne_zero hne)
    obtain ⟨ro, e3⟩ := hI.refs p rp o e1 e2 hz
    rw [ho] at e3; cases e3
  have h0 : ∀ c, isRecVal c = true → (List.replicate n (0#64 : Word)).count c = 0 := by
    intro c hc
    rw [List.count_eq_zero]
    intro hm
    rw [(List.mem_replicate.1 hm).2] at hc
    exact absurd hc (by decide)
  generalize hh : ({ h with recs := upd h.recs o (some ⟨bits, 0#64, List.replicate n 0#64⟩) } : Heap) = h'
  have hget : ∀ c, c ≠ o → h'.recs c = h.recs c := by
    intro c hc; subst hh; exact upd_ne _ _ hc
  have hgeto : h'.recs o = some ⟨bits, 0#64, List.replicate n 0#64⟩ := by subst hh; exact upd_self _ _ _
  have hcells : h'.cells = h.cells := by subst hh; rfl
  have hsame : SameStr h h' := by subst hh; exact ⟨rfl, rfl, rfl, rfl, rfl, rfl⟩
  have hcn : cnext h' = cnext h := by funext x; simp only [cnext, hcells]
  have hcar : carOf h' = carOf h := by funext x; simp only [carOf, hcells]
  clear hh
  refine ⟨?_, ?_, ?_, ?_⟩
  · refine SInv.congrF (F := fldF h) ?_ ?_
    · exact hsame.sinv hI.str
    · intro p x h1 h2
      cases p with
      | tmp _ => rfl
      | ext _ => rfl
      | fld r i =>
        by_cases hr : r = o
        · subst hr
          simp only [fldF, hgeto, ho, Option.bind_some, Option.bind_none, reduceCtorEq, iff_false]
          intro e
          have := List.eq_of_mem_replicate (mem_of_get e)
          rw [this] at h1; exact h1 (by decide)
        · simp only [fldF, hget r hr]
  · obtain ⟨bl, b1, b2, b3⟩ := hI.back
    refine ⟨fun c => if c = o then [] else bl c, ?_, ?_, ?_⟩
    · intro c r hc
      by_cases hco : c = o
      · subst hco; rw [hgeto] at hc; cases hc; simp [Chain, Seg]
      · rw [hget c hco] at hc
        simp only [if_neg hco, hcn]; exact b1 c r hc
    · intro c c' r r' x hc hc' hx hx'
      dsimp only at hx hx'
      split_ifs at hx hx' with a b
      · simp at hx
      · simp at hx
      · simp at hx'
      · rw [hget c a] at hc; rw [hget c' (by assumption)] at hc'
        exact b2 c c' r r' x hc hc' hx hx'
    · intro c r hc p
      have hcr : isRecVal c = true := by
        by_cases hco : c = o
        · rw [hco]; exact hz
        · rw [hget c hco] at hc; exact hI.recs c r hc
      have hN : nref h' p c = nref h p c := by
        by_cases hp : p = o
        · subst hp
          simp only [nref, hgeto, ho, Option.map_some, Option.getD_some, Option.map_none, Option.getD_none]
          exact h0 c hcr
        · simp only [nref, hget p hp]
      rw [hN]
      by_cases hco : c = o
      · subst hco; simp [hnoref]
      · simp only [if_neg hco, hcar]
        rw [hget c hco] at hc
        exact b3 c r hc p
  · intro r rc w hr hw hwr
    have key : ∃ rc', h.recs w = some rc' := by
      by_cases hro : r = o
      · subst hro
        rw [hgeto] at hr; cases hr
        rw [List.eq_of_mem_replicate hw] at hwr
        exact absurd hwr (by decide)
      · rw [hget r hro] at hr
        exact hI.refs r rc w hr hw hwr
    obtain ⟨rc', e⟩ := key
    have : w ≠ o := by rintro rfl; rw [ho] at e; cases e
    exact ⟨rc', by rw [hget w this]; exact e⟩
  · intro r rc hr
    by_cases hro : r = o
    · rw [hro]; exact hz
    · rw [hget r hro] at hr; exact hI.recs r rc hr

/-! ## Deletion -/

def dropF (F : Pos → Option Word) (r : Word) (j : Nat) : Pos → Option Word
  | .fld q i => if q = r ∧ i < j then none else F (.fld q i)
  | p => F p

def dropN (h : Heap) (r : Word) (t : List Word) : Word → Word → Nat := fun p c => if p = r then t.count c else nref h p c

theorem SameRecs.trans {h1 h2 h3 : Heap} (a : SameRecs h1 h2) (b : SameRecs h2 h3) : SameRecs h1 h3 := by
  intro p
  refine ⟨fun e => (b p).1 ((a p).1 e), fun rc e => ?_⟩
  obtain ⟨b1, e1⟩ := (a p).2 rc e
  obtain ⟨b2, e2⟩ := (b p).2 _ e1
  exact ⟨b2, e2⟩

theorem SameRecs.refl (h : Heap) : SameRecs h h := fun _ => ⟨id, fun rc e => ⟨rc.back, e⟩⟩

theorem freeFields_ok {h0 : Heap} (hI : Inv C h0) {r : Word} {rc : Rec} (hr : h0.recs r = some rc) : ∀ (t pre : List Word) (h : Heap),
    rc.fields = pre ++ t → SameRecs h0 h → SInv C h (dropF (fldF h0) r pre.length) → BackOK h (dropN h0 r t) → Sub h0 h → h.hlen = h0.hlen →
    ∃ h', freeFields r t h = some (some h') ∧ SameRecs h0 h' ∧ SInv C h' (dropF (fldF h0) r rc.fields.length) ∧ BackOK h' (dropN h0 r []) ∧
      Sub h0 h' ∧ h'.hlen = h0.hlen := by
  intro t
  induction t with
  | nil =>
    intro pre h e1 e2 e3 e4 e5 e6
    rw [List.append_nil] at e1
    exact ⟨h, rfl, e2, by rw [e1]; exact e3, e4, e5, e6⟩
  | cons w t ih =>
    intro pre h e1 e2 e3 e4 e5 e6
    have hmem : w ∈ rc.fields := by rw [e1]; simp
    have hpos : rc.fields[pre.length]? = some w := by rw [e1]; simp
    obtain ⟨h1, g1, g2, g3, g4⟩ : ∃ h1, (if isRecVal w then removeBacklink h w r else some (some h)) = some (some h1) ∧
        BackOK h1 (dropN h0 r t) ∧ SameStr h h1 ∧ SameRecs h h1 := by
      by_cases hw : isRecVal w = true
      · rw [if_pos hw]
        obtain ⟨rw0, hrw⟩ := hI.refs r rc w hr hmem hw
        obtain ⟨b, hrw'⟩ := (e2 w).2 rw0 hrw
        obtain ⟨h1, q1, q2, q3⟩ := removeBacklink_ok e4 hrw' (p := r) (by simp [dropN])
        obtain ⟨b', q4, _⟩ := q2.recs
        refine ⟨h1, q1, ?_, q2.str, sameRecs_upd hrw' q4⟩
        refine q3.congr (fun c r' hc => ⟨r', hc, rfl⟩) rfl ?_
        intro p c rc' hc
        simp only [updN, dropN]
        by_cases hp : p = r
        · subst hp
          by_cases hc' : c = w
          · subst hc'; simp
          · simp [hc', List.count_cons, Ne.symm hc']
        · simp [hp]
      · rw [if_neg hw]
        refine ⟨h, rfl, ?_, ⟨rfl, rfl, rfl, rfl, rfl, rfl⟩, SameRecs.refl h⟩
        refine e4.congr (fun c r' hc => ⟨r', hc, rfl⟩) rfl ?_
        intro p c rc' hc
        simp only [dropN]
        split_ifs
        · rw [List.count_cons]
          have : (w == c) = false := by
            rw [beq_eq_false_iff_ne]
            rintro rfl
            cases hc0 : h0.recs w with
            | none => rw [(e2 w).1 hc0] at hc; cases hc
            | some r0 => exact hw (hI.recs w r0 hc0)
          simp [this]
        · rfl
    have i1 := g3.sinv e3
    have hF : dropF (fldF h0) r pre.length (.fld r pre.length) = some w := by
      simp only [dropF, Nat.lt_irrefl, and_false, if_false, fldF, hr, Option.bind_some, hpos]
    have hFeq : setF (dropF (fldF h0) r pre.length) (.fld r pre.length) none = dropF (fldF h0) r (pre ++ [w]).length := by
      funext p
      cases p with
      | tmp _ => simp [setF, dropF]
      | ext _ => simp [setF, dropF]
      | fld q i =>
        simp only [setF, dropF, Pos.fld.injEq, List.length_append, List.length_singleton]
        by_cases hq : q = r
        · subst hq
          by_cases hi : i = pre.length
          · simp [hi]
          · have : i < pre.length + 1 ↔ i < pre.length := by omega
            simp [hi, this]
        · simp [hq]
    obtain ⟨h2, q1, q2, q3⟩ : ∃ h2, (if isPtr w then freeField freeDepth h1 w else some h1) = some h2 ∧
        SInv C h2 (setF (dropF (fldF h0) r pre.length) (.fld r pre.length) none) ∧ Shrunk h1 h2 := by
      by_cases hp : isPtr w = true
      · obtain ⟨h3, a, b, c⟩ := i1.drop (p := .fld r pre.length) (w := w) (i := 0) (j := 1) rfl hF (by simp) (by simp [dropF, fldF]) (by simp)
          (by simp [dropF, fldF]) (by decide)
        exact ⟨h3, by rw [if_pos hp]; exact a, b, c⟩
      · refine ⟨h1, by rw [if_neg hp], drop_plain i1 hF (Or.inl ?_), Shrunk.refl h1⟩
        rcases kind_cases w with k | k | k | k | k | k <;> simp_all
    rw [hFeq] at q2
    have hsr : SameRecs h1 h2 := by intro p; rw [q3.recs]; exact ⟨id, fun rc e => ⟨rc.back, e⟩⟩
    obtain ⟨h', z⟩ := ih (pre ++ [w]) h2 (by rw [e1]; simp) ((e2.trans g4).trans hsr) q2
      (g2.congr (fun c r' hc => ⟨r', by rw [← q3.recs]; exact hc, rfl⟩) q3.cells (fun _ _ _ _ => rfl))
      ((e5.trans g3.sub).trans q3.sub) (by rw [q3.hlen, g3.2.2.2.2.2, e6])
    refine ⟨h', ?_, z.2⟩
    rw [freeFields, g1]
    simp only [q1]
    exact z.1

/-- The records of `h` without `r`. -/
def Gone (h h' : Heap) (r : Word) : Prop :=
  h'.recs r = none ∧ ∀ p, p ≠ r → (h.recs p = none → h'.recs p = none) ∧ (∀ rc, h.recs p = some rc → ∃ b, h'.recs p = some { rc with back := b })

inductive DelOut (C : Prop) (s s' : Db ι) (r : Word) (code : Int) : Prop
  | refused : s' = s → code = -1 → DelOut C s s' r code
  | index : s'.h = s.h → code = -3 → DelOut C s s' r code
  | gone : Gone s.h s'.h r → Sub s.h s'.h → s'.h.hlen = s.h.hlen → Inv C s'.h → code = 0 → DelOut C s s' r code

theorem deleteRecord_full (X : Ix ι) {s : Db ι} (hI : Inv C s.h) {r : Word} (hrec : ∃ rc, s.h.recs r = some rc) :
    ∃ s' code, deleteRecord X s r = some (s', code) ∧ DelOut C s s' r code ∧
      (code = -1 ↔ ∃ p rp, s.h.recs p = some rp ∧ r ∈ rp.fields) ∧
      (code = -3 → ∀ rc, s.h.recs r = some rc → (if rc.special then (s.ix, 0) else X.delRec s.h s.ix r).2 < -1) ∧
      (code = 0 → ∀ rc, s.h.recs r = some rc → s'.ix = (if rc.special then (s.ix, 0) else X.delRec s.h s.ix r).1) := by
  obtain ⟨rc, hr⟩ := hrec
  obtain ⟨bl, b1, b2⟩ := hI.parents hr
  have hiff : rc.back ≠ 0#64 ↔ ∃ p rp, s.h.recs p = some rp ∧ r ∈ rp.fields := by
    constructor
    · intro hb
      have hne : bl ≠ [] := fun e => hb ((Chain.nil_iff b1).2 e)
      obtain ⟨a, l, rfl⟩ := List.exists_cons_of_ne_nil hne
      have : 0 < nref s.h (carOf s.h a) r := by rw [← b2]; simp
      obtain ⟨rp, e1, e2⟩ := nref_pos this
      exact ⟨_, rp, e1, e2⟩
    · rintro ⟨p, rp, e1, e2⟩ hb
      have := (Chain.nil_iff b1).1 hb
      subst this
      have := b2 p
      simp only [List.map_nil, List.count_nil, nref, e1, Option.map_some, Option.getD_some] at this
      exact absurd (List.count_pos_iff.2 e2) (by omega)
  simp only [deleteRecord, hr]
  by_cases hb : rc.back ≠ 0#64
  · rw [if_pos hb]
    exact ⟨s, -1, rfl, .refused rfl rfl, by simp [hiff.1 hb], by simp, by simp⟩
  rw [if_neg hb]
  have hnot : ¬ ∃ p rp, s.h.recs p = some rp ∧ r ∈ rp.fields := fun e => hb (hiff.2 e)
  simp only [Option.some.injEq, forall_eq']
  generalize (if rc.special = true then (s.ix, 0) else X.delRec s.h s.ix r) = y
  by_cases hy : y.2 < -1
  · rw [if_pos hy]
    exact ⟨_, _, rfl, .index rfl rfl, by simp only [hnot, iff_false]; decide, fun _ => hy, by simp⟩
  rw [if_neg hy]
  obtain ⟨h1, g1, g2, g3, g4, g5, g6⟩ := freeFields_ok hI hr rc.fields [] s.h rfl (SameRecs.refl _)
    (by
      have : dropF (fldF s.h) r ([] : List Word).length = fldF s.h := by
        funext p; cases p <;> simp [dropF]
      rw [this]; exact hI.str)
    (hI.back.congr (fun c r' hc => ⟨r', hc, rfl⟩) rfl (by
      intro p c rc' hc
      simp only [dropN]
      split_ifs with hp
      · subst hp; simp [nref, hr]
      · rfl)) (Sub.refl _) rfl
  rw [g1]
  have hgone : Gone s.h { h1 with recs := upd h1.recs r none } r :=
    ⟨upd_self _ _ _, fun p hp => by
      have : ({ h1 with recs := upd h1.recs r none } : Heap).recs p = h1.recs p := upd_ne _ _ hp
      rw [this]; exact g2 p⟩
  have hlive : ∀ p rp, ({ h1 with recs := upd h1.recs r none } : Heap).recs p = some rp → p ≠ r ∧ ∃ rp0, s.h.recs p = some rp0 ∧
      rp.fields = rp0.fields := by
    intro p rp hp
    by_cases hpr : p = r
    · subst hpr; simp [upd_self] at hp
    · refine ⟨hpr, ?_⟩
      cases h0 : s.h.recs p with
      | none => rw [(hgone.2 p hpr).1 h0] at hp; cases hp
      | some rp0 =>
        obtain ⟨b, e⟩ := (hgone.2 p hpr).2 rp0 h0
        rw [e] at hp; cases hp
        exact ⟨rp0, rfl, rfl⟩
  have hF : fldF { h1 with recs := upd h1.recs r none } = dropF (fldF s.h) r rc.fields.length := by
    funext p
    cases p with
    | tmp _ => rfl
    | ext _ => rfl
    | fld q i =>
      by_cases hq : q = r
      · subst hq
        simp only [fldF, dropF, upd_self, Option.bind_none, true_and, hr, Option.bind_some]
        split_ifs with hi
        · rfl
        · rw [List.getElem?_eq_none (by omega)]
      · simp only [fldF, dropF, upd_ne _ _ hq, hq, false_and, if_false]
        cases h0 : s.h.recs q with
        | none => rw [(g2 q).1 h0]
        | some rq => obtain ⟨b, e⟩ := (g2 q).2 rq h0; rw [e]; rfl
  refine ⟨_, _, rfl, .gone hgone ⟨g5.sstrs, g5.dbls, g5.ints, g5.lstrs⟩ g6 ⟨?_, ?_, ?_, ?_⟩ rfl, by simp [hnot], by simp, fun _ => rfl⟩
  · rw [hF]
    exact SameStr.sinv (h := h1) (h' := { h1 with recs := upd h1.recs r none }) ⟨rfl, rfl, rfl, rfl, rfl, rfl⟩ g3
  · refine g4.congr ?_ rfl ?_
    · intro c r' hc
      by_cases hcr : c = r
      · subst hcr; simp [upd_self] at hc
      · simp only [upd_ne _ _ hcr] at hc; exact ⟨r', hc, rfl⟩
    · intro p c rc' hc
      simp only [dropN, nref]
      by_cases hp : p = r
      · subst hp; simp [upd_self]
      · simp only [upd_ne _ _ hp, hp, if_false]
        cases h0 : s.h.recs p with
        | none => rw [(g2 p).1 h0]
        | some rq => obtain ⟨b, e⟩ := (g2 p).2 rq h0; rw [e]; rfl
  · intro p rp w hp hw hwr
    obtain ⟨hpr, rp0, e1, e2⟩ := hlive p rp hp
    rw [e2] at hw
    obtain ⟨rw0, e3⟩ := hI.refs p rp0 w e1 hw hwr
    have hwr' : w ≠ r := by rintro rfl; exact hnot ⟨p, rp0, e1, hw⟩
    obtain ⟨b, e4⟩ := (hgone.2 w hwr').2 rw0 e3
    exact ⟨_, e4⟩
  · intro p rp hp
    obtain ⟨hpr, rp0, e1, e2⟩ := hlive p rp hp
    exact hI.recs p rp0 e1

theorem deleteRecord_ok (X : Ix ι) {s : Db ι} (hI : Inv C s.h) {r : Word} (hrec : ∃ rc, s.h.recs r = some rc) :
    ∃ s' code, deleteRecord X s r = some (s', code) ∧ DelOut C s s' r code ∧
      (code = -1 ↔ ∃ p rp, s.h.recs p = some rp ∧ r ∈ rp.fields) := by
  obtain ⟨s', code, a, b, c, _⟩ := deleteRecord_full X hI hrec
  exact ⟨s', code, a, b, c⟩

/-! ## Values -/

/-- Changes outside records and cells. -/
theorem Inv.values (hI : Inv C h) (hr : h'.recs = h.recs) (hc : h'.cells = h.cells) (hs : SInv C h' (fldF h)) : Inv C h' where
  str := by
    have : fldF h' = fldF h := by funext p; cases p <;> simp only [fldF, hr]
    rw [this]; exact hs
  back := hI.back.congr (fun c r' e => ⟨r', by rw [← hr]; exact e, rfl⟩) hc (fun p c r _ => by simp only [nref, hr])
  refs r rc w h1 h2 h3 := by rw [hr] at h1 ⊢; exact hI.refs r rc w h1 h2 h3
  recs r rc h1 := by rw [hr] at h1; exact hI.recs r rc h1

theorem freeEncoded_ok (hI : Inv C h) {w : Word} (hl : LiveS h w) (ho : Owned w → ∀ q, ¬ Held h (fldF h) q w) :
    ∃ h', freeEncoded h w = some h' ∧ Inv C h' ∧ Shrunk h h' := by
  unfold freeEncoded
  by_cases hp : isPtr w = true
  · rw [if_pos hp]
    obtain ⟨h1, e1, q1, i1⟩ := hI.str.hold (p := .tmp 2) rfl (by intro x e; simp [fldF] at e) hl ho
    obtain ⟨h2, e2, i2, w2⟩ := i1.drop (p := .tmp 2) (w := w) (i := 0) (j := 1) rfl (by simp [setF]) (by simp) (by simp [setF, fldF]) (by simp)
      (by simp [setF, fldF]) (by decide)
    rw [setF_back rfl] at i2
    refine ⟨h2, by rw [e1, Option.bind_some, e2], hI.values (by rw [w2.recs, q1.recs]) (by rw [w2.cells, q1.cells]) i2, q1.shrunk.trans w2⟩
  · rw [if_neg hp]
    exact ⟨h, rfl, hI, Shrunk.refl h⟩

end WG.Recs
