import Verif.Records.Spec
import Verif.Records.Zero
/-! # Histories of API calls -/
namespace WG.Recs

variable {C : Prop} {ι : Type}

/-- One API call on the model. -/
def run (X : Ix ι) (s : Db ι) : Op → Option (Db ι × Out)
  | .create len bits al => let y := createRecord X s len bits al; some (y.1, .word y.2)
  | .set r i v cell => (setField X s r i v cell).map fun y => (y.1, .code y.2)
  | .setNew r i v cell => (setNewField X s r i v cell).map fun y => (y.1, .code y.2)
  | .delete r => (deleteRecord X s r).map fun y => (y.1, .code y.2)
  | .int v al => let y := encInt s.h v al; some (⟨y.1, s.ix⟩, .word y.2)
  | .double v al => let y := encDouble s.h v al; some (⟨y.1, s.ix⟩, .word y.2)
  | .str str lang type al => (encUnistr s.h str lang type al).map fun y => (⟨y.1, s.ix⟩, .word y.2)
  | .blob data lang al => (encUniblob s.h data lang 8#64 al).map fun y => (⟨y.1, s.ix⟩, .word y.2)
  | .free w => (freeEncoded s.h w).map fun h => (⟨h, s.ix⟩, .code 0)

/-- The table of records of a heap. -/
def view (h : Heap) : Table := fun r => (h.recs r).map (·.fields)

/-- Correct use: records passed are live; values passed are live and, for short strings, doubles and full integers (which are not shared),
not already stored; C strings contain no 0 byte. The allocator returns free, aligned objects (C08, C11). `SetPre` excludes three defects:
an unchecked failed allocation of a list cell, an index failure while a reference is stored, and overwriting a self-reference whose backlink
is the first one. `C` says whether the string area stays free of the interning defect. -/
def Pre (C : Prop) (X : Ix ι) (s : Db ι) : Op → Prop
  | .create _ _ al => ∀ o, al = some o → s.h.recs o = none ∧ isRecVal o = true
  | .set r i v cell => SetPre X s r i v cell
  | .setNew r i v cell => (∃ rc, s.h.recs r = some rc) ∧ SOK s.h v ∧
      (isRecVal v = true → ∃ q, cell = some q ∧ s.h.cells q = none ∧ q ≠ 0#64) ∧
      (isRecVal v = true → ∀ s', setNewField X s r i v cell = some (s', -3) → s'.h = s.h)
  | .delete r => ∃ rc, s.h.recs r = some rc
  | .int _ al => ∀ o, al = some o → s.h.ints o = none ∧ Aligned o
  | .double _ al => ∀ o, al = some o → s.h.dbls o = none ∧ Aligned o
  | .str str lang type al => AllocOK s.h al ∧ 0#8 ∉ str ∧ (∀ x, lang = some x → 0#8 ∉ x) ∧
      (type = 5#64 ∨ type = 6#64 ∨ type = 7#64) ∧ (C → ¬ Clash s.h (str ++ [0#8]) lang type)
  | .blob data lang al => AllocOK s.h al ∧ (∀ x, lang = some x → 0#8 ∉ x) ∧ (C → ¬ Clash s.h data lang 8#64)
  | .free w => LiveS s.h w ∧ (Owned w → ∀ q, ¬ Held s.h (fldF s.h) q w)

/-- States reached from an empty database by correct use. -/
inductive Reach (C : Prop) (X : Ix ι) : Db ι → Prop
  | init (n : Nat) (x : ι) : Reach C X ⟨Heap.empty n, x⟩
  | step {s s' : Db ι} {op : Op} {out : Out} : Reach C X s → Pre C X s op → run X s op = some (s', out) → Reach C X s'

theorem inv_empty (n : Nat) : Inv C (Heap.empty n) := by
  have hno : ∀ p w, ¬ Held (Heap.empty n) (fldF (Heap.empty n)) p w := by
    intro p w hp
    cases p with
    | fld r i => simp [Held, fldF, Heap.empty] at hp
    | tmp k => simp [Held, fldF] at hp
    | ext o => obtain ⟨x, e, _⟩ := hp; simp [Heap.empty] at e
  refine ⟨⟨fun p w h => absurd h (hno p w), fun p q w _ h => absurd h (hno p w), ?_, ?_, ?_, ?_, ?_, ?_, ?_⟩, ?_, ?_, ?_⟩
  · intro o s e; simp [Heap.empty] at e
  · intro o s e; simp [Heap.empty] at e
  · intro o s e; simp [Heap.empty] at e
  · intro o s e; simp [Heap.empty] at e
  · intro o s e; simp [Heap.empty] at e
  · exact ⟨fun _ => [], fun b => rfl, fun b w hw => by simp at hw⟩
  · intro _
    refine ⟨?_, ?_⟩
    · intro o k l e; simp [keyOf, Heap.empty] at e
    · intro o o' k e; simp [keyOf, Heap.empty] at e
  · exact ⟨fun _ => [], fun c r e => by simp [Heap.empty] at e, fun c c' r r' x e => by simp [Heap.empty] at e,
      fun c r e => by simp [Heap.empty] at e⟩
  · intro r rc w e; simp [Heap.empty] at e
  · intro r rc e; simp [Heap.empty] at e

/-- What one call does. -/
structure StepOk (C : Prop) (s s' : Db ι) (op : Op) (out : Out) : Prop where
  inv : Inv C s'.h
  spec : SpecStep (view s.h) op out (view s'.h)
  value : ∀ w, LiveS s.h w → LiveS s'.h w → SameValue s.h s'.h w
  quiet : Quiet s.h s'.h ∨ Grown s.h s'.h

theorem view_stored {h h' : Heap} {r : Word} {i : Nat} {v : Word} (hs : Stored h h' r i v) : view h' = (view h).store r i v := by
  funext p
  simp only [view, Table.store]
  cases hp : h.recs p with
  | none => rw [(hs p).1 hp]; simp
  | some rp => obtain ⟨b, e⟩ := (hs p).2 rp hp; rw [e]; split_ifs <;> simp

theorem view_gone {h h' : Heap} {r : Word} (hg : Gone h h' r) : view h' = fun p => if p = r then none else view h p := by
  funext p
  simp only [view]
  by_cases hpr : p = r
  · subst hpr; rw [hg.1]; simp
  · rw [if_neg hpr]
    cases hp : h.recs p with
    | none => rw [(hg.2 p hpr).1 hp]
    | some rp => obtain ⟨b, e⟩ := (hg.2 p hpr).2 rp hp; rw [e]; simp

theorem view_congr {h h' : Heap} (e : h'.recs = h.recs) : view h' = view h := by funext p; simp only [view, e]

theorem refers_iff {h : Heap} {r : Word} : (view h).Refers r ↔ ∃ p rp, h.recs p = some rp ∧ r ∈ rp.fields := by
  constructor
  · rintro ⟨p, fs, e1, e2⟩
    cases hp : h.recs p with
    | none => simp [view, hp] at e1
    | some rp => simp only [view, hp, Option.map_some, Option.some.injEq] at e1; subst e1; exact ⟨p, rp, hp, e2⟩
  · rintro ⟨p, rp, e1, e2⟩
    exact ⟨p, rp.fields, by simp [view, e1], e2⟩

theorem Sub.stepValue {h h' : Heap} (hs : Sub h h') (hI : Inv C h') (w : Word) (_ : LiveS h w) (hl : LiveS h' w) : SameValue h h' w :=
  hs.value hI.str hl
theorem Grown.stepValue {h h' : Heap} (hs : Grown h h') (hI : Inv C h) (w : Word) (hl : LiveS h w) (_ : LiveS h' w) : SameValue h h' w :=
  (hs.shrunk.sub.value hI.str hl).symm

theorem step_ok (X : Ix ι) {s : Db ι} (hI : Inv C s.h) {op : Op} (hp : Pre C X s op) :
    ∃ s' out, run X s op = some (s', out) ∧ StepOk C s s' op out := by
  cases op with
  | create len bits al =>
    refine ⟨_, _, rfl, ?_⟩
    simp only [createRecord, createRaw]
    by_cases hl : len < 0
    · simp only [if_pos hl, if_true]
      exact ⟨hI, Or.inr ⟨Or.inl hl, rfl, rfl⟩, fun w _ _ => SameValue.refl _ w, Or.inl (Quiet.refl _)⟩
    · simp only [if_neg hl]
      cases al with
      | none => exact ⟨hI, Or.inr ⟨Or.inr rfl, rfl, rfl⟩, fun w _ _ => SameValue.refl _ w, Or.inl (Quiet.refl _)⟩
      | some o =>
        obtain ⟨a1, a2⟩ := hp o rfl
        have ho : o ≠ 0#64 := by rintro rfl; exact absurd a2 (by decide)
        have hi := hI.create (bits := bits) (n := len.toNat) a1 a2
        simp only [if_neg ho]
        refine ⟨hi, Or.inl ⟨by omega, o, rfl, ?_, ?_⟩, ?_, Or.inl (Quiet.of_eq rfl)⟩
        · split_ifs <;> simp
        · funext p
          simp only [view]
          by_cases hpo : p = o
          · subst hpo; simp [upd_self]
          · simp [upd_ne _ _ hpo, hpo]
        · intro w h1 h2
          refine Sub.stepValue (h := s.h) (h' := { s.h with recs := upd s.h.recs o _ }) ⟨fun _ _ e => e, fun _ _ e => e, fun _ _ e => e, fun _ s e => ⟨s, e, rfl, rfl, rfl⟩⟩ hi w h1 h2
  | set r i v cell =>
    obtain ⟨s', c, e1, e2, e3⟩ := setField_ok X hI hp
    have q := setField_quiet X e1
    refine ⟨s', .code c, by simp [run, e1], ?_⟩
    obtain ⟨rc, hr⟩ := hp.rcd
    have hhas : (view s.h).has r i ↔ c ≠ -2 := by
      rw [Ne, e3]
      simp only [Table.has, view, hr, Option.map_some, Option.some.injEq, exists_eq_left', not_or, not_lt, not_le]
    cases e2 with
    | refused h1 h2 =>
      subst h1
      exact ⟨hI, Or.inl ⟨h2, by rw [hhas, not_not]; exact h2, rfl⟩, fun w _ _ => SameValue.refl _ w, Or.inl q⟩
    | same h1 h2 h3 h4 =>
      subst h1
      have hh := hhas.2 (by omega)
      refine ⟨hI, Or.inr ⟨hh, Or.inl ⟨h2, ?_⟩⟩, fun w _ _ => SameValue.refl _ w, Or.inl q⟩
      obtain ⟨fs, g1, g2, g3⟩ := hh
      simp only [view, hr, Option.map_some, Option.some.injEq] at g1
      subst g1
      simp only [getField, hr, Option.map_some, if_neg (show ¬ (i < 0 ∨ (rc.fields.length : Int) ≤ i) by omega), Option.some.injEq] at h4
      funext p
      simp only [Table.store, view]
      split_ifs with hpr
      · subst hpr
        rw [hr]
        simp only [Option.map_some, Option.some.injEq]
        have hlt : i.toNat < rc.fields.length := by omega
        rw [List.getD_eq_getElem?_getD, List.getElem?_eq_getElem hlt, Option.getD_some] at h4
        subst h4
        exact (List.set_getElem_self hlt).symm
      · rfl
    | index h1 h2 =>
      refine ⟨by rw [h1]; exact hI, Or.inr ⟨hhas.2 (by omega), Or.inr ⟨h2, Or.inl (by rw [h1])⟩⟩, ?_, Or.inl q⟩
      intro w _ _; rw [h1]; exact SameValue.refl _ w
    | stored h1 h2 h3 h4 h5 h6 =>
      refine ⟨h5, Or.inr ⟨hhas.2 (by omega), ?_⟩, h3.stepValue h5, Or.inl q⟩
      rcases h6 with h6 | h6
      · exact Or.inl ⟨h6, view_stored h2⟩
      · exact Or.inr ⟨h6, Or.inr (view_stored h2)⟩
  | setNew r i v cell =>
    obtain ⟨⟨rc, hr⟩, p2, p3, p4⟩ := hp
    obtain ⟨s', c, e1, e2, e3⟩ := setNewField_ok X hI ⟨rc, hr⟩ p2 p3 p4 (i := i)
    have q := setNewField_quiet X e1
    refine ⟨s', .code c, by simp [run, e1], ?_⟩
    have hhas : ((view s.h).has r i ∧ ∃ fs, view s.h r = some fs ∧ fs[i.toNat]? = some 0#64) ↔ c ≠ -2 := by
      rw [Ne, e3]
      simp only [Table.has, view, hr, Option.map_some, Option.some.injEq, exists_eq_left', not_or, not_lt, not_le, ne_eq, not_not]
      tauto
    cases e2 with
    | refused h1 h2 =>
      subst h1
      exact ⟨hI, Or.inl ⟨h2, by rw [hhas, not_not]; exact h2, rfl⟩, fun w _ _ => SameValue.refl _ w, Or.inl q⟩
    | same h1 h2 h3 h4 =>
      subst h1
      have hh := hhas.2 (by omega)
      refine ⟨hI, Or.inr ⟨hh.1, hh.2, Or.inl ⟨h2, ?_⟩⟩, fun w _ _ => SameValue.refl _ w, Or.inl q⟩
      obtain ⟨fs, g1, g2, g3⟩ := hh.1
      simp only [view, hr, Option.map_some, Option.some.injEq] at g1
      subst g1
      simp only [getField, hr, Option.map_some, if_neg (show ¬ (i < 0 ∨ (rc.fields.length : Int) ≤ i) by omega), Option.some.injEq] at h4
      funext p
      simp only [Table.store, view]
      split_ifs with hpr
      · subst hpr
        rw [hr]
        simp only [Option.map_some, Option.some.injEq]
        have hlt : i.toNat < rc.fields.length := by omega
        rw [List.getD_eq_getElem?_getD, List.getElem?_eq_getElem hlt, Option.getD_some] at h4
        subst h4
        exact (List.set_getElem_self hlt).symm
      · rfl
    | index h1 h2 =>
      obtain ⟨z1, z2⟩ := hhas.2 (by omega)
      refine ⟨by rw [h1]; exact hI, Or.inr ⟨z1, z2, Or.inr ⟨h2, Or.inl (by rw [h1])⟩⟩, ?_, Or.inl q⟩
      intro w _ _; rw [h1]; exact SameValue.refl _ w
    | stored h1 h2 h3 h4 h5 h6 =>
      obtain ⟨z1, z2⟩ := hhas.2 (by omega)
      refine ⟨h5, Or.inr ⟨z1, z2, ?_⟩, h3.stepValue h5, Or.inl q⟩
      rcases h6 with h6 | h6
      · exact Or.inl ⟨h6, view_stored h2⟩
      · exact Or.inr ⟨h6, Or.inr (view_stored h2)⟩
  | delete r =>
    obtain ⟨s', c, e1, e2, e3⟩ := deleteRecord_ok X hI hp
    have q := deleteRecord_quiet X e1
    refine ⟨s', .code c, by simp [run, e1], ?_⟩
    rw [← refers_iff] at e3
    cases e2 with
    | refused h1 h2 =>
      subst h1
      exact ⟨hI, Or.inl ⟨h2, e3.1 h2, rfl⟩, fun w _ _ => SameValue.refl _ w, Or.inl q⟩
    | index h1 h2 =>
      refine ⟨by rw [h1]; exact hI, Or.inr ⟨fun hh => ?_, Or.inr ⟨h2, by rw [h1]⟩⟩, ?_, Or.inl q⟩
      · have := e3.2 hh; omega
      · intro w _ _; rw [h1]; exact SameValue.refl _ w
    | gone h1 h2 h3 h4 h5 =>
      refine ⟨h4, Or.inr ⟨fun hh => ?_, Or.inl ⟨h5, view_gone h1⟩⟩, h2.stepValue h4, Or.inl q⟩
      have := e3.2 hh; omega
  | int v al =>
    obtain ⟨g1, g2, g3⟩ := encInt_ok hI v hp
    exact ⟨_, _, rfl, g1, view_congr g2.recs, g2.stepValue hI, Or.inr g2⟩
  | double v al =>
    obtain ⟨g1, g2, g3⟩ := encDouble_ok hI v hp
    exact ⟨_, _, rfl, g1, view_congr g2.recs, g2.stepValue hI, Or.inr g2⟩
  | str str lang type al =>
    obtain ⟨p1, p2, p3, p4, p5⟩ := hp
    obtain ⟨h', w, e, g1, g2, g3, _⟩ := encUnistr_ok hI p1 p2 p3 (show StrType type by unfold StrType; tauto) p5
    exact ⟨⟨h', s.ix⟩, .word w, by simp [run, e], g1, view_congr g2.recs, g2.stepValue hI, Or.inr g2⟩
  | blob data lang al =>
    obtain ⟨p1, p3, p5⟩ := hp
    obtain ⟨h', w, e, g1, g2, g3, _⟩ := encUniblob_ok hI p1 data p3 (show StrType 8#64 by unfold StrType; tauto) p5
    exact ⟨⟨h', s.ix⟩, .word w, by simp [run, e], g1, view_congr g2.recs, g2.stepValue hI, Or.inr g2⟩
  | free w =>
    obtain ⟨h', e, g1, g2⟩ := freeEncoded_ok hI hp.1 hp.2
    exact ⟨⟨h', s.ix⟩, .code 0, by simp [run, e], g1, view_congr g2.recs, g2.sub.stepValue g1, Or.inl (freeEncoded_quiet e)⟩

theorem reach_inv {X : Ix ι} {s : Db ι} (hs : Reach C X s) : Inv C s.h := by
  induction hs with
  | init n x => exact inv_empty n
  | step _ hp he ih =>
    obtain ⟨s1, o1, e1, ok⟩ := step_ok _ ih hp
    rw [he] at e1; cases e1
    exact ok.inv

end WG.Recs
