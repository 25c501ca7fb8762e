import Verif.Records.Hist
/-! # Lemmas for the property theorems -/
namespace WG.Recs

variable {C : Prop} {ι : Type} {h : Heap}

/-- A sequence of API calls with correct use. -/
inductive Runs (C : Prop) (X : Ix ι) : Db ι → List (Op × Out) → Db ι → Prop
  | nil (s : Db ι) : Runs C X s [] s
  | cons {s s1 s' : Db ι} {op : Op} {out : Out} {l : List (Op × Out)} :
      Pre C X s op → run X s op = some (s1, out) → Runs C X s1 l s' → Runs C X s ((op, out) :: l) s'

theorem Runs.reach {X : Ix ι} {s s' : Db ι} {l : List (Op × Out)} (hr : Reach C X s) (h : Runs C X s l s') : Reach C X s' := by
  induction h with
  | nil s => exact hr
  | cons hp he _ ih => exact ih (hr.step hp he)

theorem step_of {X : Ix ι} {s s' : Db ι} {op : Op} {out : Out} (hr : Reach C X s) (hp : Pre C X s op) (he : run X s op = some (s', out)) :
    StepOk C s s' op out := by
  obtain ⟨s1, o1, e1, ok⟩ := step_ok X (reach_inv hr) hp
  rw [he] at e1; cases e1
  exact ok

theorem getField_view {r : Word} {i : Int} : getField h r i =
    (view h r).map fun fs => if i < 0 ∨ (fs.length : Int) ≤ i then illegal else fs.getD i.toNat 0#64 := by
  simp only [getField, view, Option.map_map]; rfl

theorem recordLen_view {r : Word} : recordLen h r = (view h r).map (·.length) := by
  simp only [recordLen, view, Option.map_map]; rfl

theorem store_has {T : Table} {r : Word} {i : Int} {v : Word} (hh : T.has r i) {fs : List Word} (he : T.store r i.toNat v r = some fs) :
    0 ≤ i ∧ i < fs.length ∧ fs[i.toNat]? = some v := by
  obtain ⟨f0, e1, e2, e3⟩ := hh
  simp only [Table.store, if_true, e1, Option.map_some, Option.some.injEq] at he
  subst he
  refine ⟨e2, by simpa using e3, ?_⟩
  rw [List.getElem?_set]
  have : i.toNat < f0.length := by omega
  simp [this]

/-- Fields other than the one stored. -/
theorem store_other {T : Table} {r : Word} {i : Nat} {v : Word} {p : Word} {j : Nat} (hne : ¬ (p = r ∧ j = i)) :
    ((T.store r i v p).bind (·[j]?)) = ((T p).bind (·[j]?)) ∧ (T.store r i v p).map (·.length) = (T p).map (·.length) := by
  simp only [Table.store]
  split_ifs with hp
  · subst hp
    cases T p with
    | none => simp
    | some fs =>
      simp only [Option.map_some, Option.bind_some, List.length_set, and_true]
      rw [List.getElem?_set]
      have : i ≠ j := fun e => hne ⟨rfl, e.symm⟩
      simp [this]
  · simp

/-- The call does not write field `i` of `r` and does not delete `r`. -/
def Leaves (r : Word) (i : Nat) : Op → Prop
  | .set p j _ _ => ¬ (p = r ∧ j = (i : Int))
  | .setNew p j _ _ => ¬ (p = r ∧ j = (i : Int))
  | .delete p => p ≠ r
  | _ => True

/-- Fields and lengths that a call leaves alone. -/
theorem leaves_field {X : Ix ι} {s s' : Db ι} {op : Op} {out : Out} (hr : Reach C X s) (hp : Pre C X s op) (he : run X s op = some (s', out))
    {r : Word} {i : Nat} (hl : Leaves r i op) {fs : List Word} (hfs : view s.h r = some fs) :
    ∃ fs', view s'.h r = some fs' ∧ fs'.length = fs.length ∧ fs'[i]? = fs[i]? := by
  have ok := step_of hr hp he
  have hsp := ok.spec
  have same : view s'.h = view s.h → ∃ fs', view s'.h r = some fs' ∧ fs'.length = fs.length ∧ fs'[i]? = fs[i]? := by
    intro e; exact ⟨fs, by rw [e]; exact hfs, rfl, rfl⟩
  have st : ∀ (p : Word) (j : Int) (v : Word), (view s.h).has p j → ¬ (p = r ∧ j = (i : Int)) → view s'.h = (view s.h).store p j.toNat v →
      ∃ fs', view s'.h r = some fs' ∧ fs'.length = fs.length ∧ fs'[i]? = fs[i]? := by
    intro p j v hh hne e
    have hj : ¬ (r = p ∧ i = j.toNat) := by
      obtain ⟨f0, g1, g2, g3⟩ := hh
      rintro ⟨rfl, rfl⟩
      exact hne ⟨rfl, by omega⟩
    obtain ⟨g1, g2⟩ := store_other (T := view s.h) (v := v) hj
    rw [← e, hfs] at g1 g2
    cases hv : view s'.h r with
    | none => rw [hv] at g2; simp at g2
    | some fs' =>
      rw [hv] at g1 g2
      exact ⟨fs', rfl, by simpa using g2, by simpa using g1⟩
  cases op with
  | create len bits al =>
    cases out with
    | code c => exact hsp.elim
    | word o =>
      rcases hsp with ⟨_, a, e1, _, e2⟩ | ⟨_, _, e⟩
      · have hra : r ≠ a := by
          rintro rfl
          have := (hp r e1).1
          simp [view, this] at hfs
        exact ⟨fs, by rw [e2]; simp only [if_neg hra]; exact hfs, rfl, rfl⟩
      · exact same e
  | set p j v cell =>
    cases out with
    | word o => exact hsp.elim
    | code c =>
      rcases hsp with ⟨_, _, e⟩ | ⟨hh, ⟨_, e⟩ | ⟨_, e | e⟩⟩
      · exact same e
      · exact st p j v hh hl e
      · exact same e
      · exact st p j v hh hl e
  | setNew p j v cell =>
    cases out with
    | word o => exact hsp.elim
    | code c =>
      rcases hsp with ⟨_, _, e⟩ | ⟨hh, _, ⟨_, e⟩ | ⟨_, e | e⟩⟩
      · exact same e
      · exact st p j v hh hl e
      · exact same e
      · exact st p j v hh hl e
  | delete p =>
    cases out with
    | word o => exact hsp.elim
    | code c =>
      rcases hsp with ⟨_, _, e⟩ | ⟨hh, ⟨_, e⟩ | ⟨_, e⟩⟩
      · exact same e
      · exact ⟨fs, by rw [e]; simp only [if_neg (Ne.symm hl)]; exact hfs, rfl, rfl⟩
      · exact same e
  | int v al => cases out with
    | code c => exact hsp.elim
    | word o => exact same hsp
  | double v al => cases out with
    | code c => exact hsp.elim
    | word o => exact same hsp
  | str a b c d => cases out with
    | code c => exact hsp.elim
    | word o => exact same hsp
  | blob a b c => cases out with
    | code c => exact hsp.elim
    | word o => exact same hsp
  | free w => cases out with
    | word c => exact hsp.elim
    | code o => exact same hsp

theorem view_live {r : Word} {fs : List Word} (hI : Inv C h) (hv : view h r = some fs) {i : Nat} {w : Word} (hw : fs[i]? = some w) : LiveS h w := by
  cases hr : h.recs r with
  | none => simp [view, hr] at hv
  | some rc =>
    simp only [view, hr, Option.map_some, Option.some.injEq] at hv
    subst hv
    exact hI.str.live (.fld r i) w (by simp [Held, fldF, hr, hw])

theorem runs_field {X : Ix ι} {s s' : Db ι} {l : List (Op × Out)} (hr : Reach C X s) (hrun : Runs C X s l s')
    {r : Word} {i : Nat} (hl : ∀ q ∈ l, Leaves r i q.1) {fs : List Word} (hfs : view s.h r = some fs) :
    ∃ fs', view s'.h r = some fs' ∧ fs'.length = fs.length ∧ fs'[i]? = fs[i]? ∧ ∀ w, fs[i]? = some w → SameValue s.h s'.h w := by
  induction hrun generalizing fs with
  | nil s => exact ⟨fs, hfs, rfl, rfl, fun w _ => SameValue.refl _ w⟩
  | cons hp he _ ih =>
    obtain ⟨f1, g1, g2, g3⟩ := leaves_field hr hp he (hl _ List.mem_cons_self) hfs
    obtain ⟨f2, k1, k2, k3, k4⟩ := ih (hr.step hp he) (fun q hq => hl q (by simp [hq])) g1
    refine ⟨f2, k1, by omega, by rw [k3, g3], fun w hw => ?_⟩
    have ok := step_of hr hp he
    exact SameValue.trans (ok.value w (view_live (reach_inv hr) hfs hw) (view_live ok.inv g1 (by rw [g3]; exact hw))) (k4 w (by rw [g3]; exact hw))

/-! ## Parents -/

theorem nextParentLoop_ok (p : Word) : ∀ (l : List Word) (a : Word) (c : Cell) (n k : Nat), Chain (cnext h) a (a :: l) → h.cells a = some c →
    (∀ x ∈ a :: l, carOf h x ≠ 0#64) → ((a :: l).map (carOf h)).Nodup → ((a :: l).map (carOf h))[k]? = some p → l.length < n →
    nextParentLoop h p n c = some (((a :: l).map (carOf h))[k + 1]?) := by
  intro l
  induction l with
  | nil =>
    intro a c n k hc ha _ _ hk hn
    obtain ⟨n, rfl⟩ : ∃ m, n = m + 1 := ⟨n - 1, by simp at hn; omega⟩
    obtain ⟨_, _, q, e1, e2⟩ := hc
    simp only [cnext, ha, Option.map_some, Option.some.injEq] at e1
    simp only [Seg] at e2
    rw [nextParentLoop, if_pos (by rw [e1, e2])]
    simp
  | cons b l ih =>
    intro a c n k hc ha hnz hnd hk hn
    obtain ⟨n, rfl⟩ : ∃ m, n = m + 1 := ⟨n - 1, by simp at hn; omega⟩
    obtain ⟨_, _, q, e1, e2⟩ := hc
    have hb : q = b := e2.1
    subst hb
    simp only [cnext, ha, Option.map_some, Option.some.injEq] at e1
    have hq0 : q ≠ 0#64 := e2.2.1
    obtain ⟨q', e3, _⟩ := e2.2.2
    have hcar : carOf h a = c.car := by simp [carOf, ha]
    cases hd : h.cells q with
    | none => simp [cnext, hd] at e3
    | some d =>
      have hcarq : carOf h q = d.car := by simp [carOf, hd]
      have hd0 : d.car ≠ 0#64 := by rw [← hcarq]; exact hnz q (by simp)
      rw [nextParentLoop, e1, if_neg hq0, hd]
      dsimp only
      cases k with
      | zero =>
        simp only [List.map_cons, List.getElem?_cons_zero, Option.some.injEq] at hk
        rw [if_pos ⟨by rw [← hcar, hk], hd0⟩]
        simp [hcarq]
      | succ k =>
        have hk' : (List.map (carOf h) (q :: l))[k]? = some p := by simpa using hk
        have hpa : c.car ≠ p := by
          rw [← hcar]
          rintro rfl
          simp only [List.map_cons, List.nodup_cons] at hnd
          exact hnd.1 (List.mem_of_getElem? (by simpa using hk'))
        rw [if_neg (fun e => hpa e.1)]
        rw [ih q d n k e2 hd (fun x hx => hnz x (by simp [hx])) (by simp only [List.map_cons, List.nodup_cons] at hnd ⊢; exact hnd.2) hk'
          (by simp at hn; omega)]
        simp

/-- Parents as a list, when no record refers twice to `r`. -/
theorem parents_ok (hI : Inv C h) {r : Word} {rc : Rec} (hr : h.recs r = some rc)
    (h1 : ∀ p rp, h.recs p = some rp → rp.fields.count r ≤ 1) :
    ∃ L : List Word, L.Nodup ∧ (∀ p, p ∈ L ↔ ∃ rp, h.recs p = some rp ∧ r ∈ rp.fields) ∧ firstParent h r = some L.head? ∧
      ∀ k p, L[k]? = some p → nextParent h r p = some (L[k + 1]?) := by
  obtain ⟨bl, b1, b2⟩ := hI.parents hr
  have hmem : ∀ p, p ∈ bl.map (carOf h) ↔ ∃ rp, h.recs p = some rp ∧ r ∈ rp.fields := by
    intro p
    rw [← List.count_pos_iff, b2 p]
    constructor
    · exact nref_pos
    · rintro ⟨rp, e1, e2⟩
      simp only [nref, e1, Option.map_some, Option.getD_some]
      exact List.count_pos_iff.2 e2
  refine ⟨bl.map (carOf h), ?_, hmem, ?_, ?_⟩
  · rw [List.nodup_iff_count_le_one]
    intro p
    rw [b2 p, nref]
    cases hp : h.recs p with
    | none => simp
    | some rp => simpa using h1 p rp hp
  · cases bl with
    | nil =>
      have : rc.back = 0#64 := (Chain.nil_iff b1).2 rfl
      simp [firstParent, hr, this]
    | cons a l =>
      obtain ⟨e1, e2, q, e3, _⟩ := b1
      cases ha : h.cells a with
      | none => simp [cnext, ha] at e3
      | some c => simp [firstParent, hr, e1, e2, ha, carOf]
  · intro k p hk
    cases bl with
    | nil => simp at hk
    | cons a l =>
      have b1' := b1
      obtain ⟨e1, e2, q, e3, e4⟩ := b1
      cases ha : h.cells a with
      | none => simp [cnext, ha] at e3
      | some c =>
        simp only [nextParent, hr, e1, if_neg e2, ha]
        rw [e1] at b1'
        refine nextParentLoop_ok p l a c walkFuel k b1' ha ?_ ?_ hk ?_
        · intro x hx
          have : carOf h x ∈ (a :: l).map (carOf h) := List.mem_map_of_mem hx
          obtain ⟨rp, g1, _⟩ := (hmem _).1 this
          have := hI.recs _ rp g1
          intro e
          rw [e] at this
          exact absurd this (by decide)
        · rw [List.nodup_iff_count_le_one]
          intro p
          rw [b2 p, nref]
          cases hp : h.recs p with
          | none => simp
          | some rp => simpa using h1 p rp hp
        · have := b1'.length_lt
          simp only [List.length_cons] at this
          omega

/-! ## Holders -/

theorem refc_lists (hI : Inv C h) {o : Word} {s : LStr} (hs : h.lstrs o = some s) :
    ∃ (fields : List (Word × Nat)) (owners : List Word), fields.Nodup ∧ owners.Nodup ∧
      (∀ r i, (r, i) ∈ fields ↔ ∃ rc, h.recs r = some rc ∧ rc.fields[i]? = some (encodeLongstr o)) ∧
      (∀ q, q ∈ owners ↔ ∃ x, h.lstrs q = some x ∧ x.extra = encodeLongstr o) ∧
      s.refc = fields.length + owners.length := by
  obtain ⟨L, l1, l2, l3⟩ := hI.str.refc o s hs
  let fa : Pos → Option (Word × Nat) := fun p => match p with | .fld r i => some (r, i) | _ => none
  let fb : Pos → Option Word := fun p => match p with | .ext q => some q | _ => none
  refine ⟨L.filterMap fa, L.filterMap fb, ?_, ?_, ?_, ?_, ?_⟩
  · refine List.Nodup.filterMap ?_ l1
    intro a a' b hb hb'
    cases a <;> cases a' <;> simp_all [fa, Option.mem_def]
    rw [← hb] at hb'; simp only [Prod.mk.injEq] at hb'; exact ⟨hb'.1.symm, hb'.2.symm⟩
  · refine List.Nodup.filterMap ?_ l1
    intro a a' b hb hb'
    cases a <;> cases a' <;> simp_all [fb, Option.mem_def]
  · intro r i
    rw [List.mem_filterMap]
    constructor
    · rintro ⟨p, hp, e⟩
      cases p <;> simp only [fa, Option.some.injEq, reduceCtorEq, Prod.mk.injEq] at e
      obtain ⟨rfl, rfl⟩ := e
      have := (l2 _).1 hp
      simp only [Held, fldF] at this
      cases hr : h.recs _ with
      | none => rw [hr] at this; simp at this
      | some rc => rw [hr] at this; exact ⟨rc, rfl, by simpa using this⟩
    · rintro ⟨rc, e1, e2⟩
      exact ⟨.fld r i, (l2 _).2 (by simp [Held, fldF, e1, e2]), rfl⟩
  · intro q
    rw [List.mem_filterMap]
    constructor
    · rintro ⟨p, hp, e⟩
      cases p <;> simp only [fb, Option.some.injEq, reduceCtorEq] at e
      subst e
      exact (l2 _).1 hp
    · rintro ⟨x, e1, e2⟩
      exact ⟨.ext q, (l2 _).2 ⟨x, e1, e2⟩, rfl⟩
  · have : ∀ M : List Pos, (∀ p ∈ M, ∀ k, p ≠ .tmp k) → M.length = (M.filterMap fa).length + (M.filterMap fb).length := by
      intro M
      induction M with
      | nil => intro _; rfl
      | cons p M ih =>
        intro hM
        have := ih (fun q hq => hM q (by simp [hq]))
        cases p with
        | fld r i => simp [fa, fb, List.filterMap_cons] at this ⊢; omega
        | tmp k => exact absurd rfl (hM (.tmp k) (by simp) k)
        | ext q => simp [fa, fb, List.filterMap_cons] at this ⊢; omega
    have h2 := this L (by
      intro p hp k e
      subst e
      have := (l2 _).1 hp
      simp [Held, fldF] at this)
    omega

/-- The string is the value of a field or the extra string of a string. -/
def InUse (h : Heap) (o : Word) : Prop :=
  (∃ (r : Word) (rc : Rec) (i : Nat), h.recs r = some rc ∧ rc.fields[i]? = some (encodeLongstr o)) ∨ (∃ q x, h.lstrs q = some x ∧ x.extra = encodeLongstr o)

theorem inUse_iff {o : Word} : InUse h o ↔ ∃ p, Held h (fldF h) p (encodeLongstr o) := by
  constructor
  · rintro (⟨r, rc, i, e1, e2⟩ | ⟨q, x, e1, e2⟩)
    · exact ⟨.fld r i, by simp [Held, fldF, e1, e2]⟩
    · exact ⟨.ext q, x, e1, e2⟩
  · rintro ⟨p, hp⟩
    cases p with
    | fld r i =>
      simp only [Held, fldF] at hp
      cases hr : h.recs r with
      | none => rw [hr] at hp; simp at hp
      | some rc => rw [hr] at hp; exact Or.inl ⟨r, rc, i, hr, by simpa using hp⟩
    | tmp k => simp [Held, fldF] at hp
    | ext q => obtain ⟨x, e1, e2⟩ := hp; exact Or.inr ⟨q, x, e1, e2⟩

theorem released {X : Ix ι} {s s' : Db ι} {op : Op} {out : Out} (hr : Reach C X s) (hp : Pre C X s op) (he : run X s op = some (s', out))
    {o : Word} (ha : Aligned o) (h1 : InUse s.h o) (h2 : ¬ InUse s'.h o) : s'.h.lstrs o = none := by
  have ok := step_of hr hp he
  have hI := reach_inv hr
  rcases ok.quiet with q | g
  · by_contra hne
    obtain ⟨s1, hs1⟩ := Option.ne_none_iff_exists'.1 hne
    have hz : s1.refc ≤ 0 := by
      have := ok.inv.str.refc o s1 hs1
      have h0 := IsCount.zero (P := fun p => Held s'.h (fldF s'.h) p (encodeLongstr o)) (fun p hp => h2 (inUse_iff.2 ⟨p, hp⟩))
      have := this.unique h0
      omega
    obtain ⟨s0, e0, z0⟩ := q o s1 hs1 hz
    obtain ⟨p, hp⟩ := inUse_iff.1 h1
    have := (hI.str.refc o s0 e0).pos hp
    omega
  · exfalso
    apply h2
    rcases h1 with ⟨r, rc, i, e1, e2⟩ | ⟨q, x, e1, e2⟩
    · exact Or.inl ⟨r, rc, i, by rw [g.recs]; exact e1, e2⟩
    · obtain ⟨x', g1, g2, g3, g4, g5⟩ := g.lstrs q x e1
      exact Or.inr ⟨q, x', g1, by rw [g4]; exact e2⟩

end WG.Recs
