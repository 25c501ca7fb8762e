import Verif.Schema.Spec
/-! # Lemmas about documents -/
namespace WG.Recs

variable {C : Prop} {ι : Type} {T T' : Table} {a b c x y p q r : Word}

/-! ## Links -/

theorem Links.head {n : Nat} (h : Links T a b (n + 1)) : ∃ fs c, T a = some fs ∧ c ∈ fs ∧ isRecVal c = true ∧ Links T c b n := by
  generalize hm : n + 1 = m at h
  induction h generalizing n with
  | here => cases hm
  | @step y x k fs hl hy hx hr ih =>
    have : k = n := by omega
    subst this
    cases k with
    | zero =>
      cases hl
      exact ⟨fs, x, hy, hx, hr, .here⟩
    | succ k =>
      obtain ⟨fs', c, e1, e2, e3, e4⟩ := ih rfl
      exact ⟨fs', c, e1, e2, e3, .step e4 hy hx hr⟩

theorem Links.cons {n : Nat} {fs : List Word} (ha : T a = some fs) (hc : c ∈ fs) (hr : isRecVal c = true) (h : Links T c b n) :
    Links T a b (n + 1) := by
  induction h with
  | here => exact .step .here ha hc hr
  | step _ h1 h2 h3 ih => exact .step ih h1 h2 h3

theorem Links.congr {n : Nat} (hT : ∀ x, Below T a x → T' x = T x) (h : Links T a b n) : Links T' a b n := by
  induction h with
  | here => exact .here
  | @step y x k fs hl hy hx hr ih => exact .step ih (by rw [hT y ⟨_, hl⟩]; exact hy) hx hr

theorem Links.congr' {n : Nat} (hT : ∀ x, Below T a x → T' x = T x) (h : Links T' a b n) : Links T a b n := by
  induction h with
  | here => exact .here
  | @step y x k fs hl hy hx hr ih => exact .step ih (by rw [← hT y ⟨_, ih⟩]; exact hy) hx hr

theorem refersAt_of_mem {fs : List Word} (hp : T p = some fs) (hx : x ∈ fs) : ∃ i, RefersAt T p i x := by
  obtain ⟨i, hi⟩ := List.mem_iff_getElem?.1 hx
  exact ⟨i, fs, hp, hi⟩

theorem RefersAt.mem {i : Nat} (h : RefersAt T p i x) : ∃ fs, T p = some fs ∧ x ∈ fs := by
  obtain ⟨fs, e1, e2⟩ := h
  exact ⟨fs, e1, List.mem_of_getElem? e2⟩

/-- Nothing below a child of the root is the root. -/
theorem TreeShaped.not_root (ht : TreeShaped T r) {i : Nat} (hc : RefersAt T r i c) : ¬ Below T c r := by
  rintro ⟨n, h⟩
  generalize he : r = z at h
  cases h with
  | here => subst he; exact ht.root _ _ hc
  | step _ h1 h2 _ =>
    subst he
    obtain ⟨k, hk⟩ := refersAt_of_mem h1 h2
    exact ht.root _ _ hk

theorem Below.of_child {i : Nat} (hc : RefersAt T r i c) (hrec : isRecVal c = true) (h : Below T c x) : Below T r x := by
  obtain ⟨n, h⟩ := h
  obtain ⟨fs, e1, e2⟩ := hc.mem
  exact ⟨_, h.cons e1 e2 hrec⟩

/-- Different children have nothing in common. -/
theorem TreeShaped.disjoint (ht : TreeShaped T r) {i j : Nat} {c d : Word} (hc : RefersAt T r i c) (hd : RefersAt T r j d)
    (hcr : isRecVal c = true) (hdr : isRecVal d = true) (hij : i ≠ j) (h1 : Below T c x) (h2 : Below T d x) : False := by
  obtain ⟨n, h1⟩ := h1
  obtain ⟨m, h2⟩ := h2
  have key : ∀ {c' d' : Word} {i' j' m' : Nat}, RefersAt T r i' c' → RefersAt T r j' d' → isRecVal c' = true → isRecVal d' = true → i' ≠ j' →
      Links T d' c' m' → False := by
    intro c' d' i' j' m' hc hd hcr hdr hij h
    have hb : Below T r c' := Below.of_child hc hcr ⟨0, .here⟩
    generalize he : c' = z at h
    cases h with
    | here => subst he; exact hij (ht.single _ hb _ _ _ _ hc hd).2
    | step h0 h1 h2 h3 =>
      subst he
      obtain ⟨k, hk⟩ := refersAt_of_mem h1 h2
      have := (ht.single _ hb _ _ _ _ hc hk).1
      subst this
      exact ht.not_root hd ⟨_, h0⟩
  induction h1 generalizing m with
  | here => exact key hc hd hcr hdr hij h2
  | @step y x k fs hl hy hx hr ih =>
    have hb : Below T r x := Below.of_child hc hcr ⟨_, .step hl hy hx hr⟩
    generalize he : x = z at h2
    cases h2 with
    | here => subst he; exact key hd hc hdr hcr (Ne.symm hij) (.step hl hy hx hr)
    | step g0 g1 g2 g3 =>
      subst he
      obtain ⟨k1, hk1⟩ := refersAt_of_mem hy hx
      obtain ⟨k2, hk2⟩ := refersAt_of_mem g1 g2
      have := (ht.single _ hb _ _ _ _ hk1 hk2).1
      subst this
      exact ih _ g0

/-! ## Index operations that do not fail -/

/-- The index functions report no errors (less than −1). -/
structure Ix.Good (X : Ix ι) : Prop where
  addRec : ∀ h x r, -1 ≤ (X.addRec h x r).2
  delRec : ∀ h x r, -1 ≤ (X.delRec h x r).2
  addField : ∀ h x r i, -1 ≤ (X.addField h x r i).2
  delField : ∀ h x r i, -1 ≤ (X.delField h x r i).2

theorem visitCols_good (X : Ix ι) {op : ι → Word → Nat → ι × Int} (ho : ∀ x r i, -1 ≤ (op x r i).2) (r value : Word) :
    ∀ (l : List Word) (col : Nat) (x : ι), (visitCols X op r value l col x).2 = true
  | [], _, _ => rfl
  | w :: t, col, x => by
    simp only [visitCols]
    split_ifs with h1 h2
    · have := ho x r col; omega
    · exact visitCols_good X ho r value t _ _
    · exact visitCols_good X ho r value t _ _

theorem visitChain_good {h : Heap} {f : ι → Word → Option (ι × Bool)} (hf : ∀ y p w, f y p = some w → w.2 = true) :
    ∀ (n : Nat) (cur : Word) (x : ι) (z : ι × Bool), visitChain h f n cur x = some z → z.2 = true
  | 0, _, _, _, e => by simp [visitChain] at e
  | n + 1, cur, x, z, e => by
    simp only [visitChain] at e
    cases hc : h.cells cur with
    | none => rw [hc] at e; cases e
    | some c =>
      rw [hc] at e
      simp only at e
      cases hfx : f x c.car with
      | none => rw [hfx] at e; cases e
      | some w =>
        have hw := hf _ _ _ hfx
        obtain ⟨y, b⟩ := w
        simp only at hw
        subst hw
        rw [hfx] at e
        simp only at e
        split_ifs at e
        · cases e; rfl
        · exact visitChain_good hf n _ _ _ e

theorem visitParents_good (X : Ix ι) {op : ι → Word → Nat → ι × Int} (ho : ∀ x r i, -1 ≤ (op x r i).2) (h : Heap) :
    ∀ (d : Nat) (value : Word) (x : ι) (r : Word) (z : ι × Bool), visitParents X op h d value x r = some z → z.2 = true := by
  intro d
  induction d with
  | zero =>
    intro value x r z e
    unfold visitParents at e
    cases hr : h.recs r with
    | none => rw [hr] at e; cases e
    | some rc =>
      rw [hr] at e
      have hy : (if rc.special = true then (x, true) else visitCols X op r value rc.fields 0 x).2 = true := by
        split_ifs
        · rfl
        · exact visitCols_good X ho r value _ _ _
      simp only [hy, if_true, Option.some.injEq] at e
      rw [← e, hy]
  | succ d ih =>
    intro value x r z e
    unfold visitParents at e
    cases hr : h.recs r with
    | none => rw [hr] at e; cases e
    | some rc =>
      rw [hr] at e
      have hy : (if rc.special = true then (x, true) else visitCols X op r value rc.fields 0 x).2 = true := by
        split_ifs
        · rfl
        · exact visitCols_good X ho r value _ _ _
      simp only [hy, if_true] at e
      by_cases hb : rc.back = 0#64
      · rw [if_pos hb] at e
        cases e; exact hy
      · rw [if_neg hb] at e
        exact visitChain_good (fun y p w => ih r y p w) _ _ _ _ e

theorem setField_good {X : Ix ι} (hg : X.Good) {s s' : Db ι} (hI : Inv C s.h) {i : Int} {v : Word} {cell : Option Word}
    (hp : SetPre X s r i v cell) {code : Int} (he : setField X s r i v cell = some (s', code)) : code = 0 ∨ code = -2 := by
  obtain ⟨rc, hr⟩ := hp.rcd
  simp only [setField, hr] at he
  by_cases hi : i < 0 ∨ (rc.fields.length : Int) ≤ i
  · rw [if_pos hi] at he; cases he; exact Or.inr rfl
  rw [if_neg hi] at he
  have hilt : i.toNat < rc.fields.length := by omega
  have hget : rc.fields[i.toNat]? = some (rc.fields.getD i.toNat 0#64) := by
    rw [List.getD_eq_getElem?_getD, List.getElem?_eq_getElem hilt]; rfl
  generalize rc.fields.getD i.toNat 0#64 = old at he hget
  by_cases hov : old = v
  · rw [if_pos hov] at he; cases he; exact Or.inl rfl
  rw [if_neg hov] at he
  have hfor : ∀ z, forgetField X s r i.toNat rc = some z → z.2 = 0 := by
    intro z ez
    simp only [forgetField] at ez
    have hy : ¬ (if touches X s.ix rc i.toNat = true then X.delField s.h s.ix r i.toNat else (s.ix, 0)).2 < -1 := by
      split_ifs
      · have := hg.delField s.h s.ix r i.toNat; omega
      · simp
    rw [if_neg hy] at ez
    generalize (if touches X s.ix rc i.toNat = true then X.delField s.h s.ix r i.toNat else (s.ix, 0)) = y at ez
    split_ifs at ez
    · cases ez; rfl
    · obtain ⟨w, ew, rfl⟩ := Option.map_eq_some_iff.1 ez
      simp [visitChain_good (fun y p w => visitParents_good X (fun x r i => hg.delField s.h x r i) s.h 6 r y p w) _ _ _ _ ew]
  cases hf : forgetField X s r i.toNat rc with
  | none => rw [hf] at he; cases he
  | some z =>
    have hz := hfor z hf
    obtain ⟨x1, c1⟩ := z
    simp only at hz
    subst hz
    rw [hf] at he
    simp only [ne_eq, not_true_eq_false, if_false] at he
    obtain ⟨h3, g1, _⟩ := replaceField_ok hI hr hget hp.val
    rw [g1] at he
    simp only at he
    have haft : ∀ w, afterStore X h3 x1 r i.toNat v cell = some w → w.2 = none := by
      intro w ew
      simp only [afterStore] at ew
      cases hr3 : h3.recs r with
      | none => rw [hr3] at ew; cases ew
      | some rc3 =>
        rw [hr3] at ew
        have hy : ¬ (if touches X x1 rc3 i.toNat = true then X.addField h3 x1 r i.toNat else (x1, 0)).2 < -1 := by
          split_ifs
          · have := hg.addField h3 x1 r i.toNat; omega
          · simp
        simp only [if_neg hy] at ew
        generalize (if touches X x1 rc3 i.toNat = true then X.addField h3 x1 r i.toNat else (x1, 0)) = y at ew
        split_ifs at ew
        · obtain ⟨w, _, rfl⟩ := Option.map_eq_some_iff.1 ew; rfl
        · cases ew; rfl
    cases ha : afterStore X h3 x1 r i.toNat v cell with
    | none => rw [ha] at he; cases he
    | some w =>
      have hw := haft w ha
      obtain ⟨s2, c2⟩ := w
      simp only at hw
      subst hw
      rw [ha] at he
      simp only [restoreParents] at he
      split_ifs at he
      · cases he; exact Or.inl rfl
      · obtain ⟨w, ew, e2⟩ := Option.map_eq_some_iff.1 he
        rw [visitChain_good (fun y p w => visitParents_good X (fun x r i => hg.addField s2.h x r i) s2.h 6 r y p w) _ _ _ _ ew] at e2
        cases e2; exact Or.inl rfl

theorem deleteRecord_good {X : Ix ι} (hg : X.Good) {s s' : Db ι} (hI : Inv C s.h) (hrec : ∃ rc, s.h.recs r = some rc) {code : Int}
    (he : deleteRecord X s r = some (s', code)) : code = 0 ∨ code = -1 := by
  obtain ⟨s1, c1, e1, e2, e3⟩ := deleteRecord_ok X hI hrec
  rw [he] at e1
  cases e1
  cases e2 with
  | refused _ h => exact Or.inr h
  | gone _ _ _ _ h => exact Or.inl h
  | index h1 h2 =>
    exfalso
    obtain ⟨rc, hr⟩ := hrec
    simp only [deleteRecord, hr] at he
    have hy : ¬ (if rc.special = true then (s.ix, 0) else X.delRec s.h s.ix r).2 < -1 := by
      split_ifs
      · simp
      · have := hg.delRec s.h s.ix r; omega
    rw [if_neg hy] at he
    by_cases a : rc.back ≠ 0#64
    · rw [if_pos a] at he; cases he; omega
    · rw [if_neg a] at he
      obtain ⟨h3, g1, _⟩ := freeFields_ok hI hr rc.fields [] s.h rfl (SameRecs.refl _)
        (by
          have : dropF (fldF s.h) r ([] : List Word).length = fldF s.h := by
            funext p; cases p <;> simp [dropF]
          rw [this]; exact hI.str)
        (hI.back.congr (fun c r' hc => ⟨r', hc, rfl⟩) rfl (by
          intro p c rc' hc
          simp only [dropN]
          split_ifs with hp
          · subst hp; simp [nref, hr]
          · rfl)) (Sub.refl _) rfl
      rw [g1] at he
      cases he
      cases h2

/-! ## Deleting -/

theorem sok_zero (h : Heap) : SOK h 0#64 := by
  refine ⟨?_, ?_, ?_⟩
  · rw [LiveS, show kind 0#64 = .imm by decide]; trivial
  · intro e; exact absurd e (by decide)
  · rintro (k | k | k) <;> exact absurd k (by decide)

theorem view_some {h : Heap} {fs : List Word} (hv : view h r = some fs) : ∃ rc, h.recs r = some rc ∧ rc.fields = fs := by
  cases hr : h.recs r with
  | none => simp [view, hr] at hv
  | some rc => simp only [view, hr, Option.map_some, Option.some.injEq] at hv; exact ⟨rc, rfl, hv⟩

/-- Below one of the first `i` fields. -/
def Done (T : Table) (fs : List Word) (i : Nat) (p : Word) : Prop := ∃ j, j < i ∧ ∃ c, fs[j]? = some c ∧ isRecVal c = true ∧ Below T c p

/-- The state of the loop before field `i`. -/
structure LoopInv (C : Prop) (X : Ix ι) (s0 s : Db ι) (r : Word) (fs : List Word) (i : Nat) : Prop where
  reach : Reach C X s0 → Reach C X s
  inv : Inv C s.h
  sub : Sub s0.h s.h
  gone : ∀ p, p ≠ r → Done (view s0.h) fs i p → view s.h p = none
  kept : ∀ p, p ≠ r → ¬ Done (view s0.h) fs i p → view s.h p = view s0.h p
  root : ∃ f, view s.h r = some f ∧ f.length = fs.length ∧ ∀ j, f[j]? = fs[j]? ∨ (f[j]? = some 0#64 ∧ j < i)
  clear : ∃ f, view s.h r = some f ∧ ∀ j, j < i → ∀ w, f[j]? = some w → isRecVal w = false

theorem LoopInv.refers {X : Ix ι} {s0 s : Db ι} {fs : List Word} {i : Nat} (hL : LoopInv C X s0 s r fs i) (hr : view s0.h r = some fs) {k : Nat}
    (hx : x ≠ 0#64) (h : RefersAt (view s.h) p k x) : RefersAt (view s0.h) p k x := by
  obtain ⟨f, e1, e2⟩ := h
  by_cases hp : p = r
  · subst hp
    obtain ⟨f', g1, g2, g3⟩ := hL.root
    rw [e1] at g1; cases g1
    rcases g3 k with g | ⟨g, _⟩
    · exact ⟨fs, hr, by rw [← g]; exact e2⟩
    · rw [e2] at g; cases g; exact absurd rfl hx
  · by_cases hd : Done (view s0.h) fs i p
    · rw [hL.gone p hp hd] at e1; cases e1
    · rw [hL.kept p hp hd] at e1; exact ⟨f, e1, e2⟩

theorem recVal_ne {w : Word} (h : isRecVal w = true) : w ≠ 0#64 := by rintro rfl; exact absurd h (by decide)

/-- What `delRec` is shown to do. -/
def Deletes (C : Prop) (X : Ix ι) (d : Nat) : Prop :=
  ∀ (s : Db ι) (r : Word), Inv C s.h → (∃ fs, view s.h r = some fs) → TreeShaped (view s.h) r → (∀ x n, Links (view s.h) r x n → n < d) →
    ∃ s', delRec X d s r = some (s', 0) ∧ Inv C s'.h ∧ Sub s.h s'.h ∧ (∀ p, Below (view s.h) r p → view s'.h p = none) ∧
      (∀ p, ¬ Below (view s.h) r p → view s'.h p = view s.h p) ∧ (Reach C X s → Reach C X s')

theorem delLoop_ok {X : Ix ι} (hg : X.Good) {d : Nat} (hd : Deletes C X d) {s0 : Db ι} {fs : List Word} (hr : view s0.h r = some fs)
    (ht : TreeShaped (view s0.h) r) (hb : ∀ x n, Links (view s0.h) r x n → n < d + 1) :
    ∀ (n i : Nat) (s : Db ι), n + i = fs.length → LoopInv C X s0 s r fs i →
      ∃ s', delLoop X (delRec X d) r n i s = some (s', 0) ∧ LoopInv C X s0 s' r fs fs.length
  | 0, i, s, hn, hL => by
    have : i = fs.length := by omega
    subst this
    exact ⟨s, rfl, hL⟩
  | n + 1, i, s, hn, hL => by
    have hilt : i < fs.length := by omega
    obtain ⟨f, f1, f2, f3⟩ := hL.root
    have hfi : f[i]? = fs[i]? := by
      rcases f3 i with e | ⟨_, e⟩
      · exact e
      · omega
    obtain ⟨enc, henc⟩ : ∃ enc, fs[i]? = some enc := ⟨_, List.getElem?_eq_getElem hilt⟩
    have hgf : getField s.h r i = some enc := by
      rw [getField_view, f1, Option.map_some, if_neg (by omega), Int.toNat_natCast, List.getD_eq_getElem?_getD, hfi, henc]; rfl
    simp only [delLoop, hgf]
    have hRi : RefersAt (view s0.h) r i enc := ⟨fs, hr, henc⟩
    by_cases hrec : isRecVal enc = true
    · rw [if_pos hrec]
      obtain ⟨rc, hrc, hrcf⟩ := view_some f1
      have hne : enc ≠ r := by rintro rfl; exact ht.root _ _ hRi
      have hpre : SetPre X s r i 0#64 none := by
        refine ⟨⟨rc, hrc⟩, sok_zero _, fun e => absurd e (by decide), fun e => absurd e (by decide), ?_⟩
        intro rc' h1 h2
        rw [hrc] at h1; cases h1
        rw [hrcf, Int.toNat_natCast, hfi, henc] at h2
        cases h2; exact absurd rfl hne
      obtain ⟨s1, c1, e1, e2, e3⟩ := setField_ok X hL.inv hpre
      have hc1 : c1 = 0 := by
        rcases setField_good hg hL.inv hpre e1 with h | h
        · exact h
        · obtain ⟨rc', g1, g2⟩ := e3.1 h
          rw [hrc] at g1; cases g1
          rw [hrcf] at g2
          omega
      subst hc1
      have hst : view s1.h = (view s.h).store r i 0#64 ∧ Inv C s1.h ∧ Sub s.h s1.h := by
        cases e2 with
        | refused _ h => cases h
        | index _ h => omega
        | same _ _ _ h =>
          rw [hgf] at h
          cases h; exact absurd hrec (by decide)
        | stored _ h2 h3 _ h5 _ => exact ⟨view_stored h2, h5, h3⟩
      obtain ⟨hv1, hI1, hs1⟩ := hst
      have hv1r : view s1.h r = some (f.set i 0#64) := by rw [hv1]; simp [Table.store, f1]
      have hv1p : ∀ p, p ≠ r → view s1.h p = view s.h p := by intro p hp; rw [hv1]; simp [Table.store, hp]
      -- references in the new state
      have href : ∀ {p : Word} {k : Nat} {x : Word}, x ≠ 0#64 → RefersAt (view s1.h) p k x → RefersAt (view s0.h) p k x ∧ ¬ (p = r ∧ k = i) := by
        intro p k x hx h
        obtain ⟨g, g1, g2⟩ := h
        by_cases hp : p = r
        · subst hp
          rw [hv1r] at g1
          cases g1
          rw [List.getElem?_set] at g2
          by_cases hk : i = k
          · rw [if_pos hk] at g2
            split_ifs at g2
            cases g2; exact absurd rfl hx
          · rw [if_neg hk] at g2
            exact ⟨hL.refers hr hx ⟨f, f1, g2⟩, fun e => hk e.2.symm⟩
        · rw [hv1p p hp] at g1
          exact ⟨hL.refers hr hx ⟨g, g1, g2⟩, fun e => hp e.1⟩
      -- the subtree is unchanged
      have hag : ∀ x, Below (view s0.h) enc x → view s1.h x = view s0.h x := by
        intro x hx
        have hxr : x ≠ r := by rintro rfl; exact ht.not_root hRi hx
        rw [hv1p x hxr, hL.kept x hxr]
        rintro ⟨j, hj, c', q1, q2, q3⟩
        exact ht.disjoint ⟨fs, hr, q1⟩ hRi q2 hrec (by omega) q3 hx
      have hbel : ∀ x, Below (view s1.h) enc x ↔ Below (view s0.h) enc x := fun x =>
        ⟨fun ⟨k, h⟩ => ⟨k, h.congr' hag⟩, fun ⟨k, h⟩ => ⟨k, h.congr hag⟩⟩
      have hbr : Below (view s0.h) r enc := Below.of_child hRi hrec ⟨0, .here⟩
      have hlive : ∃ g, view s1.h enc = some g := by
        rw [hag enc ⟨0, .here⟩]
        have := hL.inv.refs r rc enc hrc (by rw [hrcf]; exact List.mem_of_getElem? (hfi.trans henc)) hrec
        obtain ⟨re, hre⟩ := this
        rw [← hag enc ⟨0, .here⟩, hv1p enc hne]
        exact ⟨re.fields, by simp [view, hre]⟩
      have htr : TreeShaped (view s1.h) enc := by
        refine ⟨fun p k h => ?_, fun x hx p k q j h1 h2 => ?_⟩
        · obtain ⟨h1, h2⟩ := href (recVal_ne hrec) h
          exact h2 (ht.single enc hbr _ _ _ _ h1 hRi)
        · have hx0 := (hbel x).1 hx
          have hxne : x ≠ 0#64 := by
            obtain ⟨k, hk⟩ := hx0
            cases hk with
            | here => exact recVal_ne hrec
            | step _ _ _ h3 => exact recVal_ne h3
          exact ht.single x (Below.of_child hRi hrec hx0) _ _ _ _ (href hxne h1).1 (href hxne h2).1
      have hbd : ∀ x n, Links (view s1.h) enc x n → n < d := by
        intro x n hl
        obtain ⟨fs', a1, a2⟩ := hRi.mem
        have := hb x (n + 1) ((hl.congr' hag).cons a1 a2 hrec)
        omega
      obtain ⟨s2, k1, k2, k3, k4, k5, k6⟩ := hd s1 enc hI1 hlive htr hbd
      rw [e1]
      simp only [k1, ne_eq, not_true_eq_false, if_false]
      refine delLoop_ok hg hd hr ht hb n (i + 1) s2 (by omega) ?_
      have hnr : ¬ Below (view s1.h) enc r := fun h => ht.not_root hRi ((hbel r).1 h)
      have hrun : run X s (.set r i 0#64 none) = some (s1, .code 0) := by simp only [run, e1, Option.map_some]
      refine ⟨fun hR => k6 ((hL.reach hR).step (op := .set r i 0#64 none) hpre hrun), k2, (hL.sub.trans hs1).trans k3, ?_, ?_, ?_, ?_⟩
      · rintro p hp ⟨j, hj, c', q1, q2, q3⟩
        by_cases hbp : Below (view s1.h) enc p
        · exact k4 p hbp
        · rw [k5 p hbp, hv1p p hp]
          by_cases hji : j = i
          · subst hji
            rw [henc] at q1; cases q1
            exact absurd ((hbel p).2 q3) hbp
          · exact hL.gone p hp ⟨j, by omega, c', q1, q2, q3⟩
      · intro p hp hnd
        have h1 : ¬ Below (view s1.h) enc p := fun h => hnd ⟨i, by omega, enc, henc, hrec, (hbel p).1 h⟩
        rw [k5 p h1, hv1p p hp]
        exact hL.kept p hp (fun ⟨j, hj, c', q⟩ => hnd ⟨j, by omega, c', q⟩)
      · refine ⟨f.set i 0#64, by rw [k5 r hnr, hv1r], by simpa using f2, fun j => ?_⟩
        rw [List.getElem?_set]
        by_cases hj : i = j
        · subst hj
          rw [if_pos rfl, if_pos (by omega)]
          exact Or.inr ⟨rfl, by omega⟩
        · rw [if_neg hj]
          rcases f3 j with e | ⟨e, e'⟩
          · exact Or.inl e
          · exact Or.inr ⟨e, by omega⟩
      · obtain ⟨f', c1, c2⟩ := hL.clear
        rw [f1] at c1; cases c1
        refine ⟨f.set i 0#64, by rw [k5 r hnr, hv1r], fun j hj w hw => ?_⟩
        rw [List.getElem?_set] at hw
        split_ifs at hw with h1 h2
        · cases hw; decide
        · exact c2 j (by omega) w hw
    · rw [if_neg hrec]
      refine delLoop_ok hg hd hr ht hb n (i + 1) s (by omega) ?_
      have hdone : ∀ p, Done (view s0.h) fs (i + 1) p → Done (view s0.h) fs i p := by
        rintro p ⟨j, hj, c', q1, q2, q3⟩
        by_cases hji : j = i
        · subst hji
          rw [henc] at q1; cases q1
          exact absurd q2 hrec
        · exact ⟨j, by omega, c', q1, q2, q3⟩
      refine ⟨hL.reach, hL.inv, hL.sub, fun p hp h => hL.gone p hp (hdone p h), fun p hp h => hL.kept p hp (fun ⟨j, hj, q⟩ => h ⟨j, by omega, q⟩), ?_, ?_⟩
      · refine ⟨f, f1, f2, fun j => ?_⟩
        rcases f3 j with e | ⟨e, e'⟩
        · exact Or.inl e
        · exact Or.inr ⟨e, by omega⟩
      · obtain ⟨f', c1, c2⟩ := hL.clear
        rw [f1] at c1; cases c1
        refine ⟨f, f1, fun j hj w hw => ?_⟩
        by_cases hji : j = i
        · subst hji
          rw [hfi, henc] at hw; cases hw
          simpa using hrec
        · exact c2 j (by omega) w hw

theorem delRec_ok {X : Ix ι} (hg : X.Good) : ∀ d, Deletes C X d
  | 0 => fun s r _ _ _ hb => absurd (hb r 0 .here) (by omega)
  | d + 1 => by
    intro s r hI hv ht hb
    obtain ⟨fs, hr⟩ := hv
    have hlen : recordLen s.h r = some fs.length := by rw [recordLen_view, hr]; rfl
    have h0 : LoopInv C X s s r fs 0 :=
      ⟨id, hI, Sub.refl _, fun p _ ⟨j, hj, _⟩ => absurd hj (by omega), fun p _ _ => rfl, ⟨fs, hr, rfl, fun j => Or.inl rfl⟩,
        ⟨fs, hr, fun j hj => absurd hj (by omega)⟩⟩
    obtain ⟨s1, e1, hL⟩ := delLoop_ok hg (delRec_ok hg d) hr ht hb fs.length 0 s (by omega) h0
    simp only [delRec, hlen, e1, ne_eq, not_true_eq_false, if_false]
    obtain ⟨f, f1, f2, f3⟩ := hL.root
    obtain ⟨rc, hrc, hrcf⟩ := view_some f1
    obtain ⟨s2, c2, g1, g2, g3⟩ := deleteRecord_ok X hL.inv ⟨rc, hrc⟩
    have hne : c2 ≠ -1 := by
      intro h
      obtain ⟨p, rp, q1, q2⟩ := g3.1 h
      obtain ⟨k, hk⟩ := refersAt_of_mem (T := view s1.h) (p := p) (x := r) (fs := rp.fields) (by simp [view, q1]) q2
      exact ht.root p k (hL.refers hr (recVal_ne (hL.inv.recs r rc hrc)) hk)
    have hc2 : c2 = 0 := by
      rcases deleteRecord_good hg hL.inv ⟨rc, hrc⟩ g1 with h | h
      · exact h
      · exact absurd h hne
    subst hc2
    rw [g1]
    refine ⟨s2, by simp, ?_⟩
    have hG : Gone s1.h s2.h r ∧ Sub s1.h s2.h ∧ Inv C s2.h := by
      cases g2 with
      | refused _ h => cases h
      | index _ h => cases h
      | gone a b _ c _ => exact ⟨a, b, c⟩
    obtain ⟨a, b, c⟩ := hG
    have hvg := view_gone a
    have hbel : ∀ p, p ≠ r → (Below (view s.h) r p ↔ Done (view s.h) fs fs.length p) := by
      intro p hp
      constructor
      · rintro ⟨n, hn⟩
        cases n with
        | zero => cases hn; exact absurd rfl hp
        | succ n =>
          obtain ⟨fs', c', q1, q2, q3, q4⟩ := hn.head
          rw [hr] at q1; cases q1
          obtain ⟨j, hj⟩ := List.mem_iff_getElem?.1 q2
          exact ⟨j, (List.getElem?_eq_some_iff.1 hj).1, c', hj, q3, n, q4⟩
      · rintro ⟨j, _, c', q1, q2, q3⟩
        exact Below.of_child ⟨fs, hr, q1⟩ q2 q3
    have hrun : run X s1 (.delete r) = some (s2, .code 0) := by simp only [run, g1, Option.map_some]
    refine ⟨c, hL.sub.trans b, fun p hp => ?_, fun p hp => ?_, fun hR => (hL.reach hR).step (op := .delete r) ⟨rc, hrc⟩ hrun⟩
    · rw [hvg]
      by_cases hpr : p = r
      · simp [hpr]
      · simp only [hpr, if_false]
        exact hL.gone p hpr ((hbel p hpr).1 hp)
    · have hpr : p ≠ r := by rintro rfl; exact hp ⟨0, .here⟩
      rw [hvg]
      simp only [hpr, if_false]
      exact hL.kept p hpr (fun h => hp ((hbel p hpr).2 h))

/-! ## Finding -/

theorem findChain_ok {h : Heap} {f : Word → Option (Option Word)} : ∀ (l : List Word) (n : Nat) (cur : Word), l ≠ [] → Chain (cnext h) cur l →
    l.length ≤ n → (∀ p ∈ l.map (carOf h), ∃ z, f p = some z) →
    ∃ z, findChain h f n cur = some z ∧ (∀ d, z = some d → ∃ p ∈ l.map (carOf h), f p = some (some d)) ∧
      (z = none → ∀ p ∈ l.map (carOf h), f p = some none)
  | [], _, _, h, _, _, _ => absurd rfl h
  | a :: t, 0, _, _, _, h, _ => by simp at h
  | a :: t, n + 1, cur, _, hc, hn, hf => by
    obtain ⟨h1, _, m, hm, hs⟩ := hc
    subst h1
    cases hcell : h.cells cur with
    | none => simp [cnext, hcell] at hm
    | some c =>
      simp only [cnext, hcell, Option.map_some, Option.some.injEq] at hm
      subst hm
      have hcar : carOf h cur = c.car := by simp [carOf, hcell]
      simp only [findChain, hcell]
      obtain ⟨z, hz⟩ := hf c.car (by simp [hcar])
      rw [hz]
      cases z with
      | some d =>
        exact ⟨some d, rfl, fun d' e => by cases e; exact ⟨c.car, by simp [hcar], hz⟩, fun e => by cases e⟩
      | none =>
        simp only
        by_cases h0 : c.cdr = 0#64
        · have : t = [] := (Chain.nil_iff hs).1 h0
          subst this
          rw [if_pos h0]
          refine ⟨none, rfl, (fun d e => by cases e), fun _ p hp => ?_⟩
          simp only [List.map_cons, List.map_nil, List.mem_singleton] at hp
          subst hp
          rw [hcar]; exact hz
        · rw [if_neg h0]
          have hne : t ≠ [] := fun e => h0 ((Chain.nil_iff hs).2 e)
          obtain ⟨w, g1, g2, g3⟩ := findChain_ok t n c.cdr hne hs (by simp at hn; omega) (fun p hp => hf p (by simp only [List.map_cons, List.mem_cons]; exact Or.inr hp))
          refine ⟨w, g1, fun d e => ?_, fun e p hp => ?_⟩
          · obtain ⟨p, q1, q2⟩ := g2 d e
            exact ⟨p, by simp only [List.map_cons, List.mem_cons]; exact Or.inr q1, q2⟩
          · simp only [List.map_cons, List.mem_cons] at hp
            rcases hp with rfl | hp
            · rw [hcar]; exact hz
            · exact g3 e p hp

theorem findDocRec_ok {h : Heap} (hI : Inv C h) : ∀ (d : Nat) (r : Word) (rc : Rec), h.recs r = some rc →
    ∃ z, findDocRec h d r = some z ∧
      (∀ e, z = some e → (∃ re, h.recs e = some re ∧ re.isDoc = true) ∧ ∃ n, n ≤ d ∧ Links (view h) e r n) ∧
      (z = none → ∀ e n, n ≤ d → Links (view h) e r n → ∀ re, h.recs e = some re → re.isDoc = false) := by
  intro d
  induction d with
  | zero =>
    intro r rc hr
    simp only [findDocRec, hr]
    by_cases hd : rc.isDoc = true
    · rw [if_pos hd]
      exact ⟨_, rfl, fun e he => by cases he; exact ⟨⟨rc, hr, hd⟩, 0, Nat.le_refl _, .here⟩, fun e => by cases e⟩
    · rw [if_neg hd]
      refine ⟨_, rfl, (fun e he => by cases he), fun _ e n hn hl re hre => ?_⟩
      have : n = 0 := by omega
      subst this
      cases hl
      rw [hr] at hre; cases hre; simpa using hd
  | succ d ih =>
    intro r rc hr
    simp only [findDocRec, hr]
    by_cases hd : rc.isDoc = true
    · rw [if_pos hd]
      exact ⟨_, rfl, fun e he => by cases he; exact ⟨⟨rc, hr, hd⟩, 0, by omega, .here⟩, fun e => by cases e⟩
    · rw [if_neg hd]
      obtain ⟨bl, b1, b2⟩ := hI.parents hr
      have hmem : ∀ p, p ∈ bl.map (carOf h) ↔ ∃ rp, h.recs p = some rp ∧ r ∈ rp.fields := by
        intro p
        constructor
        · intro hp
          exact nref_pos (by rw [← b2]; exact List.count_pos_iff.2 hp)
        · rintro ⟨rp, e1, e2⟩
          refine List.count_pos_iff.1 ?_
          rw [b2, nref, e1]
          exact List.count_pos_iff.2 e2
      have hrecv := hI.recs r rc hr
      have hnone : ∀ (hall : ∀ p ∈ bl.map (carOf h), findDocRec h d p = some none) (e : Word) (n : Nat), n ≤ d + 1 → Links (view h) e r n →
          ∀ re, h.recs e = some re → re.isDoc = false := by
        intro hall e n hn hl re hre
        generalize hz : r = z at hl
        cases hl with
        | here => subst hz; rw [hr] at hre; cases hre; simpa using hd
        | @step y x k fs h1 h2 h3 h4 =>
          subst hz
          obtain ⟨ry, hy, rfl⟩ := view_some h2
          have hp := (hmem y).2 ⟨ry, hy, h3⟩
          obtain ⟨w, g1, _, g3⟩ := ih y ry hy
          rw [hall y hp] at g1
          cases g1
          exact g3 rfl e k (by omega) h1 re hre
      by_cases hb : rc.back = 0#64
      · rw [if_pos hb]
        refine ⟨_, rfl, (fun e he => by cases he), fun _ => hnone ?_⟩
        have := (Chain.nil_iff b1).1 hb
        subst this
        intro p hp; simp at hp
      · rw [if_neg hb]
        obtain ⟨z, g1, g2, g3⟩ := findChain_ok (f := findDocRec h d) bl walkFuel rc.back (fun e => hb ((Chain.nil_iff b1).2 e)) b1 (Nat.le_of_lt b1.length_lt)
          (fun p hp => by
            obtain ⟨rp, e1, _⟩ := (hmem p).1 hp
            obtain ⟨w, q1, _⟩ := ih p rp e1
            exact ⟨w, q1⟩)
        refine ⟨z, g1, fun e he => ?_, fun he => hnone (g3 he)⟩
        obtain ⟨p, q1, q2⟩ := g2 e he
        obtain ⟨rp, e1, e2⟩ := (hmem p).1 q1
        obtain ⟨w, k1, k2, _⟩ := ih p rp e1
        rw [q2] at k1
        cases k1
        obtain ⟨m1, n, m2, m3⟩ := k2 e rfl
        exact ⟨m1, n + 1, by omega, .step m3 (by simp [view, e1]) e2 hrecv⟩

end WG.Recs
