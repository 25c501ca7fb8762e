import Verif.Records.Recs
/-! # Field updates keep the invariant -/
namespace WG.Recs

variable {C : Prop} {h h' : Heap} {ι : Type}

theorem count_set (c v : Word) : ∀ (l : List Word) (i : Nat) (old : Word), l[i]? = some old →
    (l.set i v).count c + (if old = c then 1 else 0) = l.count c + (if v = c then 1 else 0)
  | [], i, old, hi => by simp at hi
  | a :: l, 0, old, hi => by
    simp only [List.getElem?_cons_zero, Option.some.injEq] at hi
    subst hi
    simp only [List.set_cons_zero, List.count_cons, beq_iff_eq]
    split_ifs <;> omega
  | a :: l, i + 1, old, hi => by
    simp only [List.getElem?_cons_succ] at hi
    have := count_set c v l i old hi
    simp only [List.set_cons_succ, List.count_cons, beq_iff_eq]
    omega

/-- What remains of strings, doubles and integers has the same contents. -/
structure Sub (h h' : Heap) : Prop where
  sstrs : ∀ o b, h'.sstrs o = some b → h.sstrs o = some b
  dbls : ∀ o b, h'.dbls o = some b → h.dbls o = some b
  ints : ∀ o b, h'.ints o = some b → h.ints o = some b
  lstrs : ∀ o s', h'.lstrs o = some s' → ∃ s, h.lstrs o = some s ∧ s'.info = s.info ∧ s'.extra = s.extra ∧ s'.data = s.data

theorem Shrunk.sub (r : Shrunk h h') : Sub h h' := ⟨r.sstrs, r.dbls, r.ints, r.lstrs⟩
theorem Sub.refl (h : Heap) : Sub h h := (Shrunk.refl h).sub
theorem Sub.trans {h1 h2 h3 : Heap} (a : Sub h1 h2) (b : Sub h2 h3) : Sub h1 h3 :=
  ⟨fun o x e => a.sstrs o x (b.sstrs o x e), fun o x e => a.dbls o x (b.dbls o x e), fun o x e => a.ints o x (b.ints o x e), fun o s e => by
      obtain ⟨s2, e1, e2, e3, e4⟩ := b.lstrs o s e
      obtain ⟨s1, g1, g2, g3, g4⟩ := a.lstrs o s2 e1
      exact ⟨s1, g1, e2.trans g2, e3.trans g3, e4.trans g4⟩⟩
theorem SameStr.sub (hs : SameStr h h') : Sub h h' := by
  obtain ⟨s1, s2, s3, s4, s5, s6⟩ := hs
  exact ⟨fun o b => by rw [s2]; exact id, fun o b => by rw [s3]; exact id, fun o b => by rw [s4]; exact id,
    fun o s e => ⟨s, by rw [← s1]; exact e, rfl, rfl, rfl⟩⟩

/-- A value that may be stored into a field: what it refers to exists, and short strings, doubles and full integers are not stored elsewhere. -/
structure SOK (h : Heap) (v : Word) : Prop where
  live : LiveS h v
  rcd : isRecVal v = true → ∃ rc, h.recs v = some rc
  loose : Owned v → ∀ q, ¬ Held h (fldF h) q v

/-- The records of `h` with field `i` of `r` set to `v` (and different backlinks). -/
def Stored (h h' : Heap) (r : Word) (i : Nat) (v : Word) : Prop :=
  ∀ p, (h.recs p = none → h'.recs p = none) ∧
    (∀ rc, h.recs p = some rc → ∃ b, h'.recs p = some { rc with back := b, fields := if p = r then rc.fields.set i v else rc.fields })

theorem Stored.same {h1 : Heap} {r : Word} {i : Nat} {v : Word} (a : Stored h h1 r i v) (b : SameRecs h1 h') : Stored h h' r i v := by
  intro p
  refine ⟨fun e => (b p).1 ((a p).1 e), fun rc e => ?_⟩
  obtain ⟨b1, e1⟩ := (a p).2 rc e
  obtain ⟨b2, e2⟩ := (b p).2 _ e1
  exact ⟨b2, e2⟩

theorem SameRecs.stored {h1 : Heap} {r : Word} {i : Nat} {v : Word} (a : SameRecs h h1) (b : Stored h1 h' r i v) : Stored h h' r i v := by
  intro p
  refine ⟨fun e => (b p).1 ((a p).1 e), fun rc e => ?_⟩
  obtain ⟨b1, e1⟩ := (a p).2 rc e
  obtain ⟨b2, e2⟩ := (b p).2 _ e1
  exact ⟨b2, e2⟩

theorem setFld_recs {r : Word} {rc : Rec} (hr : h.recs r = some rc) (i : Nat) (v : Word) :
    (h.setFld r i v).recs = upd h.recs r (some { rc with fields := rc.fields.set i v }) := by
  simp [Heap.setFld, hr]

theorem setFld_stored {r : Word} {rc : Rec} (hr : h.recs r = some rc) (i : Nat) (v : Word) : Stored h (h.setFld r i v) r i v := by
  intro p
  rw [setFld_recs hr]
  by_cases hp : p = r
  · subst hp
    rw [upd_self, hr]
    refine ⟨(fun e => by cases e), fun rc e => ?_⟩
    cases e; exact ⟨rc.back, by simp⟩
  · rw [upd_ne _ _ hp]
    exact ⟨id, fun rc e => ⟨rc.back, by simp [hp, e]⟩⟩

theorem Stored.fldF {r : Word} {rc : Rec} {i : Nat} {v : Word} (hs : Stored h h' r i v) (hr : h.recs r = some rc) (hi : i < rc.fields.length) :
    fldF h' = setF (fldF h) (.fld r i) (some v) := by
  funext p
  cases p with
  | tmp _ => simp [Recs.fldF, setF]
  | ext _ => simp [Recs.fldF, setF]
  | fld q j =>
    simp only [Recs.fldF, setF, Pos.fld.injEq]
    cases hq : h.recs q with
    | none =>
      rw [(hs q).1 hq]
      have : q ≠ r := by rintro rfl; rw [hr] at hq; cases hq
      simp [this]
    | some rq =>
      obtain ⟨b, e⟩ := (hs q).2 rq hq
      rw [e]
      by_cases hqr : q = r
      · subst hqr
        rw [hr] at hq; cases hq
        simp only [if_true, Option.bind_some, List.getElem?_set, true_and]
        by_cases hj : j = i
        · subst hj; simp [hi]
        · simp [hj, Ne.symm hj]
      · simp [hqr]

theorem Stored.nref {r : Word} {rc : Rec} {i : Nat} {old v : Word} (hs : Stored h h' r i v) (hr : h.recs r = some rc)
    (hi : rc.fields[i]? = some old) (p c : Word) :
    nref h' p c + (if p = r ∧ old = c then 1 else 0) = nref h p c + (if p = r ∧ v = c then 1 else 0) := by
  unfold Recs.nref
  cases hp : h.recs p with
  | none =>
    rw [(hs p).1 hp]
    have : p ≠ r := by rintro rfl; rw [hr] at hp; cases hp
    simp [this]
  | some rp =>
    obtain ⟨b, e⟩ := (hs p).2 rp hp
    rw [e]
    by_cases hpr : p = r
    · subst hpr
      rw [hr] at hp; cases hp
      simpa using count_set c v rc.fields i old hi
    · simp [hpr]

theorem Stored.live {r : Word} {i : Nat} {v : Word} (hs : Stored h h' r i v) (p : Word) : (∃ rc, h'.recs p = some rc) ↔ ∃ rc, h.recs p = some rc := by
  cases hp : h.recs p with
  | none => rw [(hs p).1 hp]
  | some rp => obtain ⟨b, e⟩ := (hs p).2 rp hp; rw [e]; simp

theorem incRef_setFld (r : Word) (i : Nat) (v w : Word) : incRef (h.setFld r i v) w = (incRef h w).map (·.setFld r i v) := by
  unfold incRef
  split_ifs
  · have : (h.setFld r i v).lstrs = h.lstrs := rfl
    rw [this]
    cases h.lstrs (decodeLongstr w) <;> rfl
  · rfl

theorem kind_rcd {w : Word} : isRecVal w = true ↔ kind w = .rcd := by
  rcases kind_cases w with k | k | k | k | k | k <;> simp [k]

/-- The number of backlinks after the old value was forgotten. -/
def forgetN (h : Heap) (r old : Word) : Word → Word → Nat := if isRecVal old then updN (nref h) r old (· - 1) else nref h

theorem mem_of_get {l : List Word} {i : Nat} {w : Word} (h : l[i]? = some w) : w ∈ l := List.mem_of_getElem? h

theorem replaceField_ok (hI : Inv C h) {r : Word} {rc : Rec} {i : Nat} {old v : Word} (hr : h.recs r = some rc) (hi : rc.fields[i]? = some old)
    (hv : SOK h v) :
    ∃ h3, replaceField h r i old v = some (some h3) ∧ SInv C h3 (fldF h3) ∧ BackOK h3 (forgetN h r old) ∧ Stored h h3 r i v ∧ Sub h h3 ∧
      (∀ x, h.cells x = none → h3.cells x = none) ∧
      (∃ rc3, h3.recs r = some rc3 ∧ (rc3.back = rc.back ∨ (old = r ∧ carOf h rc.back = r))) ∧ h3.hlen = h.hlen := by
  have hmem := mem_of_get hi
  have hilt : i < rc.fields.length := (List.getElem?_eq_some_iff.1 hi).1
  -- the backlink of the old value
  obtain ⟨h1, e1, b1, s1, r1, c1, k1⟩ : ∃ h1, (if isRecVal old then removeBacklink h old r else some (some h)) = some (some h1) ∧
      BackOK h1 (forgetN h r old) ∧ SameStr h h1 ∧ SameRecs h h1 ∧ (∀ x, h.cells x = none → h1.cells x = none) ∧
      (∃ rc3, h1.recs r = some rc3 ∧ (rc3.back = rc.back ∨ (old = r ∧ carOf h rc.back = r))) := by
    by_cases ho : isRecVal old = true
    · obtain ⟨ro, hro⟩ := hI.refs r rc old hr hmem ho
      have hN : 0 < nref h r old := by
        unfold nref; rw [hr]; simpa using List.count_pos_iff.2 hmem
      obtain ⟨h1, g1, g2, g3⟩ := removeBacklink_ok hI.back hro hN
      obtain ⟨b', q1, q2⟩ := g2.recs
      refine ⟨h1, by rw [if_pos ho]; exact g1, by rw [forgetN, if_pos ho]; exact g3, g2.str, sameRecs_upd hro q1, g2.cells, ?_⟩
      by_cases hor : old = r
      · subst hor
        rw [hr] at hro; cases hro
        exact ⟨{ rc with back := b' }, by rw [q1, upd_self], q2.imp id fun e => ⟨rfl, e⟩⟩
      · exact ⟨rc, by rw [q1, upd_ne _ _ (Ne.symm hor)]; exact hr, Or.inl rfl⟩
    · exact ⟨h, by rw [if_neg ho], by rw [forgetN, if_neg ho]; exact hI.back, ⟨rfl, rfl, rfl, rfl, rfl, rfl⟩,
        fun p => ⟨id, fun rc e => ⟨rc.back, e⟩⟩, fun _ e => e, rc, hr, Or.inl rfl⟩
  have hsi : SInv C h1 (fldF h) := s1.sinv hI.str
  -- the new value is counted
  have hheld : ∀ q w, Held h1 (fldF h) q w ↔ Held h (fldF h) q w := by
    intro q w; cases q <;> simp only [Held, s1.1]
  have hlv : LiveS h1 v := by
    have := hv.live
    obtain ⟨t1, t2, t3, t4, t5, t6⟩ := s1
    unfold LiveS at *
    rcases kind_cases v with k | k | k | k | k | k <;> rw [k.1] at this ⊢ <;> simp only at this ⊢
    · rw [t1]; exact this
    · rw [t2]; exact this
    · rw [t3]; exact this
    · rw [t4]; exact this
  obtain ⟨h2, e2, q2, i2⟩ := hsi.hold (p := .tmp 2) rfl (by intro x e; simp [fldF] at e) hlv
    (fun o q hq => hv.loose o q ((hheld q v).1 hq))
  -- the old value is freed
  have hFp : setF (fldF h) (.tmp 2) (some v) (.fld r i) = some old := by simp [setF, fldF, hr, hi]
  obtain ⟨h3, e3, q3⟩ : ∃ h3, (if isPtr old then freeField freeDepth h2 old else some h2) = some h3 ∧
      SInv C h3 (setF (setF (fldF h) (.tmp 2) (some v)) (.fld r i) none) ∧ Shrunk h2 h3 := by
    by_cases hp : isPtr old = true
    · obtain ⟨h3, a, b, c⟩ := i2.drop (p := .fld r i) (w := old) (i := 0) (j := 1) rfl hFp (by simp) (by simp [setF, fldF]) (by simp)
        (by simp [setF, fldF]) (by decide)
      exact ⟨h3, by rw [if_pos hp]; exact a, b, c⟩
    · refine ⟨h2, by rw [if_neg hp], drop_plain i2 hFp (Or.inl ?_), Shrunk.refl h2⟩
      rcases kind_cases old with k | k | k | k | k | k <;> simp_all
  obtain ⟨i3, w3⟩ := q3
  have i4 := i3.move (p := .tmp 2) (q := .fld r i) (w := v) rfl rfl (by simp) (by simp [setF]) (by intro x e; simp [setF] at e)
  have hrecs3 : h3.recs = h1.recs := by rw [w3.recs, q2.recs]
  have hcells3 : h3.cells = h1.cells := by rw [w3.cells, q2.cells]
  obtain ⟨rc3, k2, k3⟩ := k1
  have hr3 : h3.recs r = some rc3 := by rw [hrecs3]; exact k2
  have hst : Stored h (h3.setFld r i v) r i v := by
    refine SameRecs.stored (h1 := h3) ?_ (setFld_stored hr3 i v)
    intro p; rw [hrecs3]; exact r1 p
  refine ⟨h3.setFld r i v, ?_, ?_, ?_, hst, ?_, ?_, ?_, ?_⟩
  · rw [replaceField, e1]
    simp only [e2, Option.bind_some, e3, Option.map_some]
  · rw [hst.fldF hr hilt]
    have i5 :=
      SameStr.sinv (h := h3) (h' := h3.setFld r i v) ⟨rfl, rfl, rfl, rfl, rfl, rfl⟩ i4
    have : setF (setF (setF (setF (fldF h) (.tmp 2) (some v)) (.fld r i) none) (.tmp 2) none) (.fld r i) (some v) =
        setF (fldF h) (.fld r i) (some v) := by
      funext q
      simp only [setF]
      split_ifs with a b c
      · rfl
      · rw [b]; rfl
      · rfl
    rw [this] at i5
    exact i5
  · refine b1.congr ?_ hcells3 (fun _ _ _ _ => rfl)
    intro c r' hc
    rw [setFld_recs hr3, hrecs3] at hc
    by_cases hcr : c = r
    · subst hcr
      rw [upd_self] at hc; cases hc
      exact ⟨rc3, k2, rfl⟩
    · rw [upd_ne _ _ hcr] at hc
      exact ⟨r', hc, rfl⟩
  · have : Sub h h3 := s1.sub.trans (q2.shrunk.sub.trans w3.sub)
    exact ⟨this.sstrs, this.dbls, this.ints, this.lstrs⟩
  · intro x hx
    have : (h3.setFld r i v).cells = h3.cells := rfl
    rw [this, hcells3]; exact c1 x hx
  · exact ⟨{ rc3 with fields := rc3.fields.set i v }, by rw [setFld_recs hr3, upd_self], k3⟩
  · have : (h3.setFld r i v).hlen = h3.hlen := rfl
    rw [this, w3.hlen, q2.hlen]; exact s1.2.2.2.2.2

/-- Storing with its backlink completes the invariant. -/
theorem Inv.stored (hI : Inv C h) {r : Word} {rc : Rec} {i : Nat} {old v : Word} (hr : h.recs r = some rc) (hi : rc.fields[i]? = some old)
    (hv : SOK h v) {h3 : Heap} (s3 : SInv C h3 (fldF h3)) (b3 : BackOK h3 (forgetN h r old)) (t3 : Stored h h3 r i v)
    {cell : Option Word} (hcell : isRecVal v = true → ∃ q, cell = some q ∧ h3.cells q = none ∧ q ≠ 0#64) :
    ∃ h4, (if isRecVal v then addBacklink h3 v r cell else some h3) = some h4 ∧ Inv C h4 ∧ Stored h h4 r i v ∧ SameStr h3 h4 ∧
      (∀ rc3, h3.recs r = some rc3 → ∃ rc4, h4.recs r = some rc4 ∧ (rc4.back = rc3.back ∨ rc3.back = 0#64)) := by
  have hmem := mem_of_get hi
  have hilt : i < rc.fields.length := (List.getElem?_eq_some_iff.1 hi).1
  have hnz : ∀ c rc', h.recs c = some rc' → isRecVal c = true := fun c rc' e => hI.recs c rc' e
  have final : ∀ {h4 : Heap}, SInv C h4 (fldF h4) → Stored h h4 r i v → BackOK h4 (nref h4) → Inv C h4 := by
    intro h4 a b c
    refine ⟨a, c, ?_, ?_⟩
    · intro p rp w hp hw hwr
      obtain ⟨rp0, hp0⟩ := (b.live p).1 ⟨rp, hp⟩
      obtain ⟨bb, e⟩ := (b p).2 rp0 hp0
      rw [hp] at e; cases e
      refine (b.live w).2 ?_
      simp only at hw
      split_ifs at hw with hpr
      · subst hpr
        rw [hr] at hp0; cases hp0
        rcases List.mem_or_eq_of_mem_set hw with hw | hw
        · exact hI.refs _ _ w hr hw hwr
        · rw [hw]; rw [hw] at hwr; exact hv.rcd hwr
      · exact hI.refs p rp0 w hp0 hw hwr
    · intro p rp hp
      obtain ⟨rp0, hp0⟩ := (b.live p).1 ⟨rp, hp⟩
      exact hI.recs p rp0 hp0
  have hforget : ∀ p c, isRecVal c = true → forgetN h r old p c + (if p = r ∧ old = c then 1 else 0) = nref h p c := by
    intro p c hc
    have hpos : 0 < nref h r old := by
      unfold nref; rw [hr]; simpa using List.count_pos_iff.2 hmem
    unfold forgetN
    by_cases ho : isRecVal old = true
    · rw [if_pos ho, updN]
      by_cases h1 : p = r ∧ c = old
      · obtain ⟨rfl, rfl⟩ := h1; simp; omega
      · rw [if_neg h1]
        have : ¬ (p = r ∧ old = c) := fun e => h1 ⟨e.1, e.2.symm⟩
        simp [this]
    · rw [if_neg ho]
      have : ¬ (p = r ∧ old = c) := by rintro ⟨_, rfl⟩; exact ho hc
      simp [this]
  by_cases hvr : isRecVal v = true
  · rw [if_pos hvr]
    obtain ⟨q, rfl, hq, hq0⟩ := hcell hvr
    obtain ⟨rv, hrv⟩ := (t3.live v).2 (hv.rcd hvr)
    obtain ⟨h4, g1, g2, g3⟩ := addBacklink_ok b3 (p := r) hrv hq hq0
    obtain ⟨b', q1, q2⟩ := g2.recs
    have hsr : SameRecs h3 h4 := sameRecs_upd hrv q1
    have t4 := t3.same hsr
    refine ⟨h4, g1, final ?_ t4 ?_, t4, g2.str, ?_⟩
    · rw [fldF_congr hsr.fields]; exact g2.str.sinv s3
    · refine g3.congr (fun c r' hc => ⟨r', hc, rfl⟩) rfl ?_
      intro p c rc' hc
      obtain ⟨rc0, hc0⟩ := (t4.live c).1 ⟨rc', hc⟩
      have hcz := hnz c rc0 hc0
      have e1 := t4.nref hr hi p c
      have e2 := hforget p c hcz
      unfold updN
      by_cases h1 : p = r ∧ c = v
      · obtain ⟨rfl, rfl⟩ := h1
        simp only [and_self, if_true]
        simp only [true_and, if_true] at e1 e2
        omega
      · rw [if_neg h1]
        have : ¬ (p = r ∧ v = c) := fun e => h1 ⟨e.1, e.2.symm⟩
        rw [if_neg this] at e1
        omega
    · intro rc3 hr3
      by_cases hrv' : r = v
      · subst hrv'
        rw [hr3] at hrv; cases hrv
        exact ⟨_, by rw [q1, upd_self], q2⟩
      · exact ⟨rc3, by rw [q1, upd_ne _ _ hrv']; exact hr3, Or.inl rfl⟩
  · rw [if_neg hvr]
    refine ⟨h3, rfl, final s3 t3 ?_, t3, ⟨rfl, rfl, rfl, rfl, rfl, rfl⟩, fun rc3 e => ⟨rc3, e, Or.inl rfl⟩⟩
    refine b3.congr (fun c r' hc => ⟨r', hc, rfl⟩) rfl ?_
    intro p c rc' hc
    obtain ⟨rc0, hc0⟩ := (t3.live c).1 ⟨rc', hc⟩
    have hcz := hnz c rc0 hc0
    have e1 := t3.nref hr hi p c
    have e2 := hforget p c hcz
    have : ¬ (p = r ∧ v = c) := by rintro ⟨_, rfl⟩; exact hvr hcz
    rw [if_neg this] at e1
    omega

/-- What a field update needs of its arguments and of the allocator. `first` excludes the update of a record's reference to itself while
the record is its own first parent, `index` a failing index update (−3) after a reference was stored. -/
structure SetPre (X : Ix ι) (s : Db ι) (r : Word) (i : Int) (v : Word) (q : Option Word) : Prop where
  rcd : ∃ rc, s.h.recs r = some rc
  val : SOK s.h v
  cell : isRecVal v = true → ∃ a, q = some a ∧ s.h.cells a = none ∧ a ≠ 0#64
  index : isRecVal v = true → ∀ s', setField X s r i v q = some (s', -3) → s'.h = s.h
  first : ∀ rc, s.h.recs r = some rc → rc.fields[i.toNat]? = some r → carOf s.h rc.back ≠ r

theorem afterStore_code {X : Ix ι} {r : Word} {i : Nat} (hX : ∀ h' x, -1 ≤ (X.addField h' x r i).2) {x : ι} {v : Word} {cell : Option Word}
    {y : Db ι × Option Int} (he : afterStore X h x r i v cell = some y) : y.2 = none := by
  unfold afterStore at he
  split at he
  · cases he
  · rename_i rc _
    generalize hy : (if touches X x rc i = true then X.addField h x r i else (x, 0)) = z at he
    have hz : ¬ z.2 < -1 := by
      rw [← hy]
      split_ifs
      · have := hX h x; omega
      · simp
    simp only [if_neg hz] at he
    split_ifs at he
    · cases hb : addBacklink h v r cell with
      | none => simp [hb] at he
      | some h2 => simp only [hb, Option.map_some, Option.some.injEq] at he; rw [← he]
    · cases he; rfl

theorem restoreParents_code {X : Ix ι} {x : ι} {r head : Word} {y : Db ι × Int} (he : restoreParents X h x r head = some y) : y.2 = 0 ∨ y.2 = -4 := by
  unfold restoreParents at he
  split_ifs at he
  · cases he; exact Or.inl rfl
  · cases hb : visitChain h (visitParents X (X.addField h) h 6 r) walkFuel head x with
    | none => simp [hb] at he
    | some z =>
      simp only [hb, Option.map_some, Option.some.injEq] at he
      rw [← he]
      simp only
      split_ifs <;> simp

/-- If the index functions do not fail, −3 is never reported after the field was stored. -/
theorem setField_index {X : Ix ι} {r : Word} {i : Int} (hX : ∀ h' x, -1 ≤ (X.addField h' x r i.toNat).2) {s s' : Db ι} {v : Word}
    {cell : Option Word} (he : setField X s r i v cell = some (s', -3)) : s'.h = s.h := by
  unfold setField at he
  cases hr : s.h.recs r with
  | none => simp [hr] at he
  | some rc =>
    simp only [hr] at he
    split_ifs at he
    · cases he
    · cases he
    · cases hf : forgetField X s r i.toNat rc with
      | none => simp [hf] at he
      | some z =>
        simp only [hf] at he
        split_ifs at he
        · exact (congrArg (fun x => (x.getD (s, 0)).1.h) he).symm
        · split at he
          · cases he
          · cases he
          · split at he
            · cases he
            · rename_i h
              have := afterStore_code hX h
              cases this
            · have := restoreParents_code he
              omega

theorem setNewField_index {X : Ix ι} {r : Word} {i : Int} (hX : ∀ h' x, -1 ≤ (X.addField h' x r i.toNat).2) {s s' : Db ι} {v : Word}
    {cell : Option Word} (he : setNewField X s r i v cell = some (s', -3)) : s'.h = s.h := by
  unfold setNewField at he
  cases hr : s.h.recs r with
  | none => simp [hr] at he
  | some rc =>
    simp only [hr] at he
    split_ifs at he
    · cases he
    · cases he
    · split at he
      · cases he
      · split at he
        · cases he
        · rename_i h
          have := afterStore_code hX h
          cases this
        · split at he
          · cases he
          · have := restoreParents_code he
            omega

/-- A stored value that is different shows. -/
theorem Stored.ne {r : Word} {rc : Rec} {i : Nat} {old v : Word} (hs : Stored h h' r i v) (hr : h.recs r = some rc)
    (hi : rc.fields[i]? = some old) (hne : old ≠ v) : h' ≠ h := by
  intro hh
  obtain ⟨b, e⟩ := (hs r).2 rc hr
  rw [hh, hr] at e
  have e2 : rc.fields = rc.fields.set i v := by simpa using congrArg (fun x => (x.getD rc).fields) e
  have e3 : (rc.fields.set i v)[i]? = some v := List.getElem?_set_self (List.getElem?_eq_some_iff.1 hi).1
  rw [← e2, hi] at e3
  exact hne (by simpa using e3)

inductive SetOut (C : Prop) (s s' : Db ι) (r : Word) (i : Int) (v : Word) (code : Int) : Prop
  | refused : s' = s → code = -2 → SetOut C s s' r i v code
  | same : s' = s → code = 0 → 0 ≤ i → getField s.h r i = some v → SetOut C s s' r i v code
  | index : s'.h = s.h → (code = -3 ∨ code = -4) → SetOut C s s' r i v code
  | stored : 0 ≤ i → Stored s.h s'.h r i.toNat v → Sub s.h s'.h → s'.h.hlen = s.h.hlen → Inv C s'.h → (code = 0 ∨ code = -3 ∨ code = -4) →
      SetOut C s s' r i v code

theorem setField_ok (X : Ix ι) {s : Db ι} (hI : Inv C s.h) {r : Word} {i : Int} {v : Word} {cell : Option Word} (hp : SetPre X s r i v cell) :
    ∃ s' code, setField X s r i v cell = some (s', code) ∧ SetOut C s s' r i v code ∧
      (code = -2 ↔ ∃ rc, s.h.recs r = some rc ∧ (i < 0 ∨ (rc.fields.length : Int) ≤ i)) := by
  obtain ⟨rc, hr⟩ := hp.rcd
  simp only [setField, hr]
  by_cases hi : i < 0 ∨ (rc.fields.length : Int) ≤ i
  · rw [if_pos hi]
    exact ⟨s, -2, rfl, .refused rfl rfl, by simp [hi]⟩
  rw [if_neg hi]
  have hn2 : ∀ code : Int, code ≠ -2 → (code = -2 ↔ ∃ rc', some rc = some rc' ∧ (i < 0 ∨ (rc'.fields.length : Int) ≤ i)) := by
    intro code hc
    refine ⟨fun e => absurd e hc, ?_⟩
    rintro ⟨rc', e, h2⟩
    cases e; exact absurd h2 hi
  have hilt : i.toNat < rc.fields.length := by omega
  have hget : rc.fields[i.toNat]? = some (rc.fields.getD i.toNat 0#64) := by
    rw [List.getD_eq_getElem?_getD, List.getElem?_eq_getElem hilt]; rfl
  generalize hold : rc.fields.getD i.toNat 0#64 = old at hget
  by_cases hov : old = v
  · rw [if_pos hov]
    refine ⟨s, 0, rfl, .same rfl rfl (by omega) ?_, hn2 0 (by decide)⟩
    simp only [getField, hr, Option.map_some, if_neg hi, hold, hov]
  rw [if_neg hov]
  have hfor : ∃ z, forgetField X s r i.toNat rc = some z ∧ (z.2 = 0 ∨ z.2 = -3 ∨ z.2 = -4) := by
    simp only [forgetField]
    generalize (if touches X s.ix rc i.toNat = true then X.delField s.h s.ix r i.toNat else (s.ix, 0)) = y
    by_cases a : y.2 < -1
    · rw [if_pos a]; exact ⟨_, rfl, by simp⟩
    rw [if_neg a]
    by_cases b : rc.back = 0#64
    · rw [if_pos b]; exact ⟨_, rfl, by simp⟩
    rw [if_neg b]
    obtain ⟨z, e⟩ := visitAll_ok hI X (X.delField s.h) 6 hr b y.1
    rw [e]
    refine ⟨_, rfl, ?_⟩
    simp only
    split_ifs <;> simp
  obtain ⟨⟨x1, code⟩, e1, hcode⟩ := hfor
  rw [e1]
  simp only at hcode ⊢
  by_cases hc0 : code = 0
  swap
  · rw [if_pos hc0]
    refine ⟨_, _, rfl, .index rfl (by omega), hn2 code (by omega)⟩
  rw [if_neg (by simp [hc0])]
  obtain ⟨h3, g1, g2, g3, g4, g5, g6, ⟨rc3, g7, g8⟩, g9⟩ := replaceField_ok hI hr hget hp.val
  rw [g1]
  simp only
  obtain ⟨h4, f1, f2, f3, f4, f5⟩ := hI.stored hr hget hp.val g2 g3 g4
    (cell := cell) (fun e => by obtain ⟨q, a, b, c⟩ := hp.cell e; exact ⟨q, a, g6 q b, c⟩)
  have g8' : rc3.back = rc.back := by
    rcases g8 with g8 | ⟨a, b⟩
    · exact g8
    · exact absurd b (hp.first rc hr (by rw [hget, a]))
  obtain ⟨rc4, f6, f7⟩ := f5 rc3 g7
  have hsub : Sub s.h h4 := g5.trans f4.sub
  have hlen : h4.hlen = s.h.hlen := f4.2.2.2.2.2.trans g9
  have haft : ∃ s2 c2, afterStore X h3 x1 r i.toNat v cell = some (s2, c2) ∧
      ((c2 = some (-3) ∧ s2.h = h3 ∧ isRecVal v = false) ∨ (c2 = none ∧ s2.h = h4)) := by
    simp only [afterStore, g7]
    generalize hy : (if touches X x1 rc3 i.toNat = true then X.addField h3 x1 r i.toNat else (x1, 0)) = y
    by_cases hy2 : y.2 < -1
    · rw [if_pos hy2]
      refine ⟨_, _, rfl, Or.inl ⟨rfl, rfl, ?_⟩⟩
      cases hv : isRecVal v with
      | false => rfl
      | true =>
        exfalso
        have hq : setField X s r i v cell = some (⟨h3, y.1⟩, -3) := by
          simp only [setField, hr]
          rw [if_neg hi, hold, if_neg hov, e1]
          simp only
          rw [if_neg (by simp [hc0]), g1]
          simp only [afterStore, g7]
          rw [hy, if_pos hy2]
        exact g4.ne hr hget hov (hp.index hv _ hq)
    · rw [if_neg hy2]
      by_cases hv : isRecVal v = true
      · rw [if_pos hv] at f1 ⊢
        rw [f1]
        exact ⟨_, _, rfl, Or.inr ⟨rfl, rfl⟩⟩
      · rw [if_neg hv] at f1 ⊢
        cases f1
        exact ⟨_, _, rfl, Or.inr ⟨rfl, rfl⟩⟩
  obtain ⟨s2, c2, e2, hc2⟩ := haft
  rw [e2]
  rcases hc2 with ⟨rfl, hs2, hv⟩ | ⟨rfl, hs2⟩
  · rw [if_neg (by simp [hv])] at f1
    cases f1
    exact ⟨s2, -3, rfl, .stored (by omega) (by rw [hs2]; exact f3) (by rw [hs2]; exact hsub) (by rw [hs2]; exact hlen)
      (by rw [hs2]; exact f2) (by simp), hn2 _ (by decide)⟩
  · have hfin : ∃ s' code, restoreParents X s2.h s2.ix r rc.back = some (s', code) ∧ s'.h = h4 ∧ (code = 0 ∨ code = -4) := by
      unfold restoreParents
      by_cases hb : rc.back = 0#64
      · rw [if_pos hb]; exact ⟨_, _, rfl, hs2, Or.inl rfl⟩
      · rw [if_neg hb, hs2]
        have hb4 : rc4.back = rc.back := by
          rcases f7 with e | e
          · rw [e, g8']
          · rw [g8'] at e; exact absurd e hb
        obtain ⟨z, e⟩ := visitAll_ok f2 X (X.addField h4) 6 f6 (by rw [hb4]; exact hb) s2.ix
        rw [hb4] at e
        rw [e]
        refine ⟨_, _, rfl, rfl, ?_⟩
        split_ifs <;> simp
    obtain ⟨s', code', q1, q2, q3⟩ := hfin
    refine ⟨s', code', q1, .stored (by omega) (by rw [q2]; exact f3) (by rw [q2]; exact hsub) (by rw [q2]; exact hlen)
      (by rw [q2]; exact f2) (by omega), hn2 _ (by omega)⟩

end WG.Recs
