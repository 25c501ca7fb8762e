import Verif.Records.Demo
/-!
# Properties of the record store

C13, C14, C16-C20 and C45, for all states reachable by correct use (`Reach`, `Pre` in `Hist.lean`); the specification is `Spec.lean`.
`Reach C` with `C = True` additionally excludes the interning defect of C19; theorems that do not need this hold for every `C`.
-/
namespace WG.Recs

variable {C : Prop} {ι : Type}

/-! ## C13: fields -/

/-- Every call is defined and has one of the effects on the table of records that the specification permits; values that exist before and
after can be read with the same result. Partial: `Pre` excludes the defects listed there. -/
theorem C13_refines_partial (X : Ix ι) {s : Db ι} (hr : Reach C X s) {op : Op} (hp : Pre C X s op) :
    ∃ s' out, run X s op = some (s', out) ∧ SpecStep (view s.h) op out (view s'.h) ∧
      ∀ w, LiveS s.h w → LiveS s'.h w → SameValue s.h s'.h w := by
  obtain ⟨s', out, e, ok⟩ := step_ok X (reach_inv hr) hp
  exact ⟨s', out, e, ok.spec, ok.value⟩

example : ∃ s' out, run X0 d6 (.setNew 8#64 1 (encodeLongstr 32#64) none) = some (s', out) ∧ SpecStep (view d6.h) (.setNew 8#64 1 (encodeLongstr 32#64) none) out (view s'.h) :=
  let ⟨s', out, e, h, _⟩ := C13_refines_partial X0 reach_d6 pre_d7
  ⟨s', out, e, h⟩

/-- After a successful wg_set_field the field reads as the value written, through any further calls that do not write this field or delete
this record, and the value decodes as at the time of writing. -/
theorem C13_last_write_partial (X : Ix ι) {s s1 s2 : Db ι} (hr : Reach C X s) {r : Word} {i : Int} {v : Word} {cell : Option Word}
    (hp : Pre C X s (.set r i v cell)) (he : run X s (.set r i v cell) = some (s1, .code 0)) {l : List (Op × Out)} (hl : Runs C X s1 l s2)
    (hq : ∀ q ∈ l, Leaves r i.toNat q.1) : getField s2.h r i = some v ∧ SameValue s1.h s2.h v := by
  have ok := step_of hr hp he
  rcases ok.spec with ⟨h0, _⟩ | ⟨hh, ⟨_, e⟩ | ⟨h0, _⟩⟩
  · omega
  · have hhas := hh
    obtain ⟨f0, g1, g2, g3⟩ := hh
    have hv1 : view s1.h r = some (f0.set i.toNat v) := by rw [e]; simp [Table.store, g1]
    have hget : (f0.set i.toNat v)[i.toNat]? = some v := by
      rw [List.getElem?_set]; have : i.toNat < f0.length := by omega
      simp [this]
    obtain ⟨f2, k1, k2, k3, k4⟩ := runs_field (hr.step hp he) hl hq hv1
    refine ⟨?_, k4 v hget⟩
    rw [getField_view, k1]
    rw [List.length_set] at k2
    rw [Option.map_some, if_neg (by rw [k2]; omega), List.getD_eq_getElem?_getD, k3, hget]; rfl
  · omega

example : getField d6.h 16#64 0 = some 8#64 := by
  have e5 : run X0 d4 (.set 16#64 0 8#64 (some 48#64)) = some (d5, .code 0) := by
    have hc : ((setField X0 d4 16#64 0 8#64 (some 48#64)).get (by decide +kernel)).2 = 0 := by decide +kernel
    simp only [run]; rw [map_get (by decide +kernel), hc]; rfl
  have e6 : run X0 d5 (.set 16#64 1 (encodeLongstr 32#64) none) = some (d6, .code 0) := by
    have hc : ((setField X0 d5 16#64 1 (encodeLongstr 32#64) none).get (by decide +kernel)).2 = 0 := by decide +kernel
    simp only [run]; rw [map_get (by decide +kernel), hc]; rfl
  refine (C13_last_write_partial X0 reach_d4 (i := 0) pre_d5 e5 (.cons (op := .set 16#64 1 (encodeLongstr 32#64) none) pre_d6 e6 (.nil _)) ?_).1
  intro q hq
  rw [List.mem_singleton] at hq
  subst hq
  simp [Leaves]

/-- No call other than a write to the field or the deletion of the record changes a field, its length or the meaning of its value. -/
theorem C13_frame_partial (X : Ix ι) {s s' : Db ι} (hr : Reach C X s) {op : Op} {out : Out} (hp : Pre C X s op)
    (he : run X s op = some (s', out)) {r : Word} {i : Nat} (hl : Leaves r i op) (hrec : ∃ n, recordLen s.h r = some n) :
    getField s'.h r i = getField s.h r i ∧ recordLen s'.h r = recordLen s.h r ∧ ∀ w, getField s.h r i = some w → SameValue s.h s'.h w := by
  obtain ⟨n, hn⟩ := hrec
  rw [recordLen_view] at hn
  cases hv : view s.h r with
  | none => rw [hv] at hn; cases hn
  | some fs =>
    obtain ⟨f1, g1, g2, g3⟩ := leaves_field hr hp he hl hv
    have ok := step_of hr hp he
    refine ⟨?_, by rw [recordLen_view, recordLen_view, g1, hv]; simp [g2], ?_⟩
    · rw [getField_view, getField_view, g1, hv]
      simp only [Option.map_some, g2, Int.toNat_natCast, List.getD_eq_getElem?_getD, g3]
    · intro w hw
      rw [getField_view, hv, Option.map_some, Option.some.injEq] at hw
      by_cases hi : (i : Int) < 0 ∨ (fs.length : Int) ≤ i
      · rw [if_pos hi] at hw
        subst hw
        have : LiveS s.h illegal := by rw [LiveS, kind_illegal]; trivial
        exact ok.value _ this (by rw [LiveS, kind_illegal]; trivial)
      · rw [if_neg hi, Int.toNat_natCast, List.getD_eq_getElem?_getD] at hw
        have hlt : i < fs.length := by omega
        rw [List.getElem?_eq_getElem hlt, Option.getD_some] at hw
        have hw' : fs[i]? = some w := by rw [List.getElem?_eq_getElem hlt, hw]
        exact ok.value w (view_live (reach_inv hr) hv hw') (view_live ok.inv g1 (by rw [g3]; exact hw'))

example : Leaves 8#64 1 (.set 16#64 1 (encodeLongstr 32#64) none) ∧ ∃ n, recordLen d5.h 8#64 = some n := ⟨by simp [Leaves], 2, by decide +kernel⟩

/-- A fresh record has the requested length and only NULL fields. -/
theorem C13_fresh_partial (X : Ix ι) {s s' : Db ι} (hr : Reach C X s) {len : Int} {bits : Word} {al : Option Word} {o : Word}
    (hp : Pre C X s (.create len bits al)) (he : run X s (.create len bits al) = some (s', .word o)) (ho : o ≠ 0#64) :
    recordLen s'.h o = some len.toNat ∧ 0 ≤ len ∧ ∀ j, 0 ≤ j → j < len → getField s'.h o j = some 0#64 := by
  have ok := step_of hr hp he
  rcases ok.spec with ⟨h0, a, e1, e2, e3⟩ | ⟨_, e, _⟩
  · have ha : o = a := by tauto
    subst ha
    refine ⟨by rw [recordLen_view, e3]; simp, h0, fun j hj1 hj2 => ?_⟩
    rw [getField_view, e3]
    simp only [if_true, Option.map_some, List.length_replicate, Option.some.injEq]
    rw [if_neg (by omega), List.getD_eq_getElem?_getD, List.getElem?_replicate]
    split_ifs <;> rfl
  · exact absurd e ho

example : recordLen d1.h 8#64 = some 2 ∧ getField d1.h 8#64 1 = some 0#64 := by decide +kernel

/-- The length of a record never changes while the record exists. -/
theorem C13_len_partial (X : Ix ι) {s s' : Db ι} (hr : Reach C X s) {l : List (Op × Out)} (hrun : Runs C X s l s') {r : Word} {n : Nat}
    (hn : recordLen s.h r = some n) (hd : ∀ q ∈ l, q.1 ≠ .delete r) : recordLen s'.h r = some n := by
  induction hrun with
  | nil s => exact hn
  | @cons s s1 s' op out l hp he _ ih =>
    refine ih (hr.step hp he) ?_ (fun q hq => hd q (List.mem_cons_of_mem _ hq))
    have hne := hd _ List.mem_cons_self
    have : ∃ i, Leaves r i op := by
      cases op with
      | set p j v c => exact ⟨j.toNat + 1, by simp only [Leaves]; omega⟩
      | setNew p j v c => exact ⟨j.toNat + 1, by simp only [Leaves]; omega⟩
      | delete p => exact ⟨0, fun e => hne (by rw [e])⟩
      | _ => exact ⟨0, trivial⟩
    obtain ⟨i, hl⟩ := this
    rw [(C13_frame_partial X hr hp he hl ⟨n, hn⟩).2.1, hn]

/-! ### Defect: overwriting a self-reference -/

def self1 : Db Unit := ((setField X0 d1 8#64 0 8#64 (some 48#64)).get (by decide +kernel)).1

theorem reach_d1 : Reach True X0 d1 := (Reach.init 10000 ()).step (op := .create 2 0 (some 8#64)) (out := .word 8#64)
    (by rintro o ⟨rfl⟩; exact ⟨rfl, by decide⟩) rfl

theorem reach_self1 : Reach True X0 self1 := by
  refine reach_d1.step (op := .set 8#64 0 8#64 (some 48#64)) (out := .code 0) ?_ ?_
  · have hr : d1.h.recs 8#64 = some ⟨0, 0#64, [0#64, 0#64]⟩ := by decide +kernel
    refine ⟨⟨_, hr⟩, sok_rec (by decide) hr, ?_, ?_, ?_⟩
    · intro _; exact ⟨48#64, rfl, by decide +kernel, by decide⟩
    · intro _ _ e; exact setField_index (fun _ _ => by simp [X0]) e
    · intro rc h1 h2; rw [hr] at h1; cases h1; simp at h2
  · have hc : ((setField X0 d1 8#64 0 8#64 (some 48#64)).get (by decide +kernel)).2 = 0 := by decide +kernel
    simp only [run]
    rw [map_get (by decide +kernel), hc]; rfl

/-- After a record was made to refer to itself, replacing the reference by NULL follows the freed list cell (use after free): `wg_set_field`
keeps the head of the backlink list it read before the cell was freed. -/
theorem C13_self_reference_counterexample : ∃ s : Db Unit, Reach True X0 s ∧ (∃ rc, s.h.recs 8#64 = some rc) ∧ SOK s.h 0#64 ∧
    setField X0 s 8#64 0 0#64 none = none := by
  refine ⟨self1, reach_self1, ⟨⟨0, 48#64, [8#64, 0#64]⟩, by decide +kernel⟩, ⟨?_, ?_, ?_⟩, by decide +kernel⟩
  · rw [LiveS, show kind 0#64 = .imm by decide]; trivial
  · intro e; exact absurd e (by decide)
  · rintro (k | k | k) <;> exact absurd k (by decide)

/-! ## C14: out-of-range accesses -/

/-- wg_set_field refuses field numbers outside the record and changes nothing. -/
theorem C14_set_refused (X : Ix ι) (s : Db ι) {r : Word} {n : Nat} (hn : recordLen s.h r = some n) {i : Int} (hi : i < 0 ∨ n ≤ i) (v : Word)
    (cell : Option Word) : setField X s r i v cell = some (s, -2) := by
  cases hr : s.h.recs r with
  | none => simp [recordLen, hr] at hn
  | some rc =>
    simp only [recordLen, hr, Option.map_some, Option.some.injEq] at hn
    simp only [setField, hr]
    rw [if_pos (by omega)]

/-- wg_set_new_field likewise. -/
theorem C14_set_new_refused (X : Ix ι) (s : Db ι) {r : Word} {n : Nat} (hn : recordLen s.h r = some n) {i : Int} (hi : i < 0 ∨ n ≤ i) (v : Word)
    (cell : Option Word) : setNewField X s r i v cell = some (s, -2) := by
  cases hr : s.h.recs r with
  | none => simp [recordLen, hr] at hn
  | some rc =>
    simp only [recordLen, hr, Option.map_some, Option.some.injEq] at hn
    simp only [setNewField, hr]
    rw [if_pos (by omega)]

/-- wg_get_field returns WG_ILLEGAL. -/
theorem C14_get_illegal {h : Heap} {r : Word} {n : Nat} (hn : recordLen h r = some n) {i : Int} (hi : i < 0 ∨ n ≤ i) :
    getField h r i = some illegal := by
  cases hr : h.recs r with
  | none => simp [recordLen, hr] at hn
  | some rc =>
    simp only [recordLen, hr, Option.map_some, Option.some.injEq] at hn
    simp only [getField, hr, Option.map_some]
    rw [if_pos (by omega)]

/-- Field numbers inside the record are never refused. -/
theorem C14_in_range (X : Ix ι) {s s' : Db ι} (hr : Reach C X s) {r : Word} {n : Nat} (hn : recordLen s.h r = some n) {i : Int} (h0 : 0 ≤ i)
    (h1 : i < n) {v : Word} {cell : Option Word} (hp : Pre C X s (.set r i v cell)) {c : Int}
    (he : run X s (.set r i v cell) = some (s', .code c)) : c ≠ -2 := by
  have ok := step_of hr hp he
  rw [recordLen_view] at hn
  cases hv : view s.h r with
  | none => rw [hv] at hn; cases hn
  | some fs =>
    rw [hv] at hn
    simp only [Option.map_some, Option.some.injEq] at hn
    rcases ok.spec with ⟨_, hh, _⟩ | ⟨hh, ⟨e, _⟩ | ⟨e, _⟩⟩
    · exact absurd ⟨fs, hv, h0, by omega⟩ hh
    · omega
    · omega

example : recordLen d5.h 8#64 = some 2 := by decide +kernel

/-! ## C16: deletion of referenced records -/

/-- wg_delete_record refuses (−1, nothing changes) exactly when some field of some record holds the record. -/
theorem C16_delete_refused (X : Ix ι) {s : Db ι} (hr : Reach C X s) {r : Word} (hrec : ∃ rc, s.h.recs r = some rc) :
    ∃ s' c, deleteRecord X s r = some (s', c) ∧ (c = -1 ↔ ∃ p rp, s.h.recs p = some rp ∧ r ∈ rp.fields) ∧ (c = -1 → s' = s) ∧
      (c ≠ -1 → c = -3 ∨ (c = 0 ∧ s'.h.recs r = none)) := by
  obtain ⟨s', c, e1, e2, e3⟩ := deleteRecord_ok X (reach_inv hr) hrec
  refine ⟨s', c, e1, e3, ?_, ?_⟩
  · intro hc
    cases e2 with
    | refused h1 h2 => exact h1
    | index h1 h2 => omega
    | gone h1 h2 h3 h4 h5 => omega
  · intro hc
    cases e2 with
    | refused h1 h2 => exact absurd h2 hc
    | index h1 h2 => exact Or.inl h2
    | gone h1 h2 h3 h4 h5 => exact Or.inr ⟨h5, h1.1⟩

/-- No field ever refers to a record that does not exist. -/
theorem C16_no_dangling (X : Ix ι) {s : Db ι} (hr : Reach C X s) {p : Word} {rp : Rec} (hp : s.h.recs p = some rp) {w : Word}
    (hw : w ∈ rp.fields) (hrec : isRecVal w = true) : ∃ rc, s.h.recs w = some rc := (reach_inv hr).refs p rp w hp hw hrec

example : Reach True X0 d7 ∧ (deleteRecord X0 d7 8#64).map (·.2) = some (-1) ∧ (deleteRecord X0 d7 16#64).map (·.2) = some 0 :=
  ⟨reach_d7, by decide +kernel, by decide +kernel⟩

/-! ## C17: parents -/

/-- Following wg_get_next_parent from a result of wg_get_first_parent or wg_get_next_parent until NULL gives this list. -/
inductive Walk (h : Heap) (r : Word) : Option Word → List Word → Prop
  | stop : Walk h r none []
  | next {p : Word} {q : Option Word} {l : List Word} : nextParent h r p = some q → Walk h r q l → Walk h r (some p) (p :: l)

/-- If no record refers to `r` from two fields, the iteration ends and visits every record with a field referring to `r` exactly once, and
no other. Partial: repeated references. -/
theorem C17_parents_partial (X : Ix ι) {s : Db ι} (hr : Reach C X s) {r : Word} (hrec : ∃ rc, s.h.recs r = some rc)
    (h1 : ∀ p rp, s.h.recs p = some rp → rp.fields.count r ≤ 1) :
    ∃ a L, firstParent s.h r = some a ∧ Walk s.h r a L ∧ L.Nodup ∧ ∀ p, p ∈ L ↔ ∃ rp, s.h.recs p = some rp ∧ r ∈ rp.fields := by
  obtain ⟨rc, hrc⟩ := hrec
  obtain ⟨L, g1, g2, g3, g4⟩ := parents_ok (reach_inv hr) hrc h1
  refine ⟨L.head?, L, g3, ?_, g1, g2⟩
  have key : ∀ k, k ≤ L.length → Walk s.h r (L[L.length - k]?) (L.drop (L.length - k)) := by
    intro k
    induction k with
    | zero => intro _; simp; exact .stop
    | succ k ih =>
      intro hk
      have hlt : L.length - (k + 1) < L.length := by omega
      rw [List.getElem?_eq_getElem hlt, List.drop_eq_getElem_cons hlt]
      have e : L.length - (k + 1) + 1 = L.length - k := by omega
      rw [e]
      refine .next ?_ (ih (by omega))
      rw [g4 (L.length - (k + 1)) _ (List.getElem?_eq_getElem hlt), e]
  have := key L.length (Nat.le_refl _)
  simpa [List.head?_eq_getElem?] using this

example : firstParent d7.h 8#64 = some (some 16#64) ∧ nextParent d7.h 8#64 16#64 = some none := by decide +kernel

def twice1 : Db Unit := ((setField X0 d2 16#64 0 8#64 (some 48#64)).get (by decide +kernel)).1
def twice2 : Db Unit := ((setField X0 twice1 16#64 1 8#64 (some 56#64)).get (by decide +kernel)).1

theorem reach_d2 : Reach True X0 d2 := reach_d1.step (op := .create 2 0 (some 16#64)) (out := .word 16#64)
    (by rintro o ⟨rfl⟩; exact ⟨by decide +kernel, by decide⟩) rfl

theorem reach_twice2 : Reach True X0 twice2 := by
  have r1 : Reach True X0 twice1 := by
    refine reach_d2.step (op := .set 16#64 0 8#64 (some 48#64)) (out := .code 0) ?_ ?_
    · have hr : d2.h.recs 16#64 = some ⟨0, 0#64, [0#64, 0#64]⟩ := by decide +kernel
      refine ⟨⟨_, hr⟩, sok_rec (rc := ⟨0, 0#64, [0#64, 0#64]⟩) (by decide) (by decide +kernel), ?_, ?_, ?_⟩
      · intro _; exact ⟨48#64, rfl, by decide +kernel, by decide⟩
      · intro _ _ e; exact setField_index (fun _ _ => by simp [X0]) e
      · intro rc h1 h2; rw [hr] at h1; cases h1; simp at h2
    · have hc : ((setField X0 d2 16#64 0 8#64 (some 48#64)).get (by decide +kernel)).2 = 0 := by decide +kernel
      simp only [run]
      rw [map_get (by decide +kernel), hc]; rfl
  refine r1.step (op := .set 16#64 1 8#64 (some 56#64)) (out := .code 0) ?_ ?_
  · have hr : twice1.h.recs 16#64 = some ⟨0, 0#64, [8#64, 0#64]⟩ := by decide +kernel
    refine ⟨⟨_, hr⟩, sok_rec (rc := ⟨0, 48#64, [0#64, 0#64]⟩) (by decide) (by decide +kernel), ?_, ?_, ?_⟩
    · intro _; exact ⟨56#64, rfl, by decide +kernel, by decide⟩
    · intro _ _ e; exact setField_index (fun _ _ => by simp [X0]) e
    · intro rc h1 h2; rw [hr] at h1; cases h1; simp at h2
  · have hc : ((setField X0 twice1 16#64 1 8#64 (some 56#64)).get (by decide +kernel)).2 = 0 := by decide +kernel
    simp only [run]
    rw [map_get (by decide +kernel), hc]; rfl

/-- A record that refers to `r` from two fields makes the iteration endless. -/
theorem C17_repeated_counterexample : ∃ s : Db Unit, Reach True X0 s ∧ (∃ rc, s.h.recs 8#64 = some rc) ∧
    ∃ a, firstParent s.h 8#64 = some a ∧ ∀ L, ¬ Walk s.h 8#64 a L := by
  refine ⟨twice2, reach_twice2, ⟨⟨0, 48#64, [0#64, 0#64]⟩, by decide +kernel⟩, some 16#64, by decide +kernel, ?_⟩
  have hn : nextParent twice2.h 8#64 16#64 = some (some 16#64) := by decide +kernel
  intro L
  induction L with
  | nil => intro hw; cases hw
  | cons p l ih =>
    intro hw
    cases hw with
    | next h1 h2 => rw [hn] at h1; cases h1; exact ih h2

/-! ## C18: reference counts -/

/-- The reference count of every long string is the number of record fields holding it plus the number of strings whose extra string
(language, prefix, type) it is. -/
theorem C18_count (X : Ix ι) {s : Db ι} (hr : Reach C X s) {o : Word} {x : LStr} (hx : s.h.lstrs o = some x) :
    ∃ (fields : List (Word × Nat)) (owners : List Word), fields.Nodup ∧ owners.Nodup ∧
      (∀ r i, (r, i) ∈ fields ↔ ∃ rc, s.h.recs r = some rc ∧ rc.fields[i]? = some (encodeLongstr o)) ∧
      (∀ q, q ∈ owners ↔ ∃ y, s.h.lstrs q = some y ∧ y.extra = encodeLongstr o) ∧
      x.refc = fields.length + owners.length := refc_lists (reach_inv hr) hx

/-- A string (or double or full integer) held by a field exists. -/
theorem C18_never_freed_in_use (X : Ix ι) {s : Db ι} (hr : Reach C X s) {r : Word} {rc : Rec} (h1 : s.h.recs r = some rc) {i : Nat} {w : Word}
    (h2 : rc.fields[i]? = some w) :
    (isLongstr w = true → ∃ x, s.h.lstrs (decodeLongstr w) = some x) ∧ (isShortstr w = true → ∃ x, s.h.sstrs (decodeShortstr w) = some x) ∧
      (isFulldouble w = true → ∃ x, s.h.dbls (decodeFulldouble w) = some x) ∧
      (isFullint w = true → ∃ x, s.h.ints (decodeFullintOffset w) = some x) := by
  have hl : LiveS s.h w := view_live (r := r) (reach_inv hr) (by simp only [view, h1]; rfl) h2
  refine ⟨fun e => ?_, fun e => ?_, fun e => ?_, fun e => ?_⟩
  · rw [LiveS, isPtr_lstr e] at hl; exact hl
  · rw [LiveS, kind_sstr e] at hl; exact hl
  · rw [LiveS, kind_dbl e] at hl; exact hl
  · rw [LiveS, kind_int e] at hl; exact hl

/-- When a call ends the last use of a long string, its storage is released by that call. -/
theorem C18_released (X : Ix ι) {s s' : Db ι} (hr : Reach C X s) {op : Op} {out : Out} (hp : Pre C X s op) (he : run X s op = some (s', out))
    {o : Word} (ha : Aligned o) (h1 : InUse s.h o) (h2 : ¬ InUse s'.h o) : s'.h.lstrs o = none := released hr hp he ha h1 h2

example : ((d7.h.lstrs 32#64).map (·.refc)) = some 2 ∧ ((setField X0 d7 16#64 1 0#64 none).map fun y => ((y.1.h.lstrs 32#64).map (·.refc))) = some (some 1) ∧
    (((setField X0 d7 16#64 1 0#64 none).bind fun y => setField X0 y.1 8#64 1 0#64 none).map fun y => ((y.1.h.lstrs 32#64).map (·.refc))) = some none := by
  decide +kernel

/-! ## C19: interning -/

/-- Encoding a string that is not stored in a short string cell, or a blob, of given type, bytes and extra string: if there is a live
object with these it is returned and nothing changes; otherwise the result is a new object (or WG_ILLEGAL); a result always has exactly
these contents. Partial: `Pre True` excludes the defect `Clash`. -/
theorem C19_interning_partial (X : Ix ι) {s s' : Db ι} (hr : Reach True X s) {op : Op} (hp : Pre True X s op) {w : Word}
    (he : run X s op = some (s', .word w)) {data : List Byte} {lang : Option (List Byte)} {type : Word} {al : StrAlloc}
    (hop : (∃ str, op = .str str lang type al ∧ data = str ++ [0#8] ∧ ¬ (lang = none ∧ type = 5#64 ∧ str.length < 32)) ∨
      (op = .blob data lang al ∧ type = 8#64)) :
    (∀ o, keyOf s.h o = some (data, lang, type) → w = encodeLongstr o ∧ s'.h = s.h) ∧
    ((∀ o, keyOf s.h o ≠ some (data, lang, type)) → w ≠ illegal → s.h.lstrs (decodeLongstr w) = none) ∧
    (w ≠ illegal → isLongstr w = true ∧ keyOf s'.h (decodeLongstr w) = some (data, lang, type)) := by
  have hI := reach_inv hr
  have key : ∃ h' , s'.h = h' ∧ Grown s.h h' ∧ ((w = illegal) ∨ (isLongstr w = true ∧ keyOf h' (decodeLongstr w) = some (data, lang, type))) ∧
      (∀ o, keyOf s.h o = some (data, lang, type) → h' = s.h ∧ w = encodeLongstr o) := by
    rcases hop with ⟨str, rfl, rfl, hns⟩ | ⟨rfl, rfl⟩
    · obtain ⟨p1, p2, p3, p4, p5⟩ := hp
      obtain ⟨h', w', e, g1, g2, g3, g4, g5⟩ := encUnistr_ok hI p1 p2 p3 (show StrType type by unfold StrType; tauto) p5
      simp only [run, e, Option.map_some, Option.some.injEq, Prod.mk.injEq, Out.word.injEq] at he
      obtain ⟨rfl, rfl⟩ := he
      refine ⟨h', rfl, g2, ?_, fun o ho => g5 trivial hns o ho⟩
      rcases g4 with ⟨a, _⟩ | ⟨a, _⟩ | ⟨_, a⟩
      · exact Or.inl a
      · exact absurd a hns
      · exact Or.inr a
    · obtain ⟨p1, p3, p5⟩ := hp
      obtain ⟨h', w', e, g1, g2, g3, g4, g5⟩ := encUniblob_ok hI p1 data p3 (show StrType 8#64 by unfold StrType; tauto) p5
      simp only [run, e, Option.map_some, Option.some.injEq, Prod.mk.injEq, Out.word.injEq] at he
      obtain ⟨rfl, rfl⟩ := he
      refine ⟨h', rfl, g2, ?_, fun o ho => g5 trivial o ho⟩
      rcases g4 with ⟨a, _⟩ | a
      · exact Or.inl a
      · exact Or.inr a
  obtain ⟨h', rfl, g1, g2, g3⟩ := key
  refine ⟨fun o ho => ⟨(g3 o ho).2, (g3 o ho).1⟩, ?_, ?_⟩
  · intro hn hw
    rcases g2 with g2 | ⟨_, g2⟩
    · exact absurd g2 hw
    · cases hs : s.h.lstrs (decodeLongstr w) with
      | none => rfl
      | some x =>
        exfalso
        have := g1.shrunk.key hI.str hs
        rw [g2] at this
        exact hn _ this.symm
  · intro hw
    rcases g2 with g2 | g2
    · exact absurd g2 hw
    · exact g2

/-- There are never two live objects with the same type, bytes and extra string. -/
theorem C19_unique_partial (X : Ix ι) {s : Db ι} (hr : Reach True X s) {o o' : Word} {k : Key} (h1 : keyOf s.h o = some k)
    (h2 : keyOf s.h o' = some k) : o = o' := ((reach_inv hr).str.full trivial).2 o o' k h1 h2

example : keyOf d7.h 32#64 = some (longText ++ [0#8], none, 5#64) ∧
    (encUnistr d7.h longText none 5#64 ⟨none, some 64#64, none, none⟩).map (·.2) = some (encodeLongstr 32#64) := by decide +kernel

def clashLang : List Byte := asc "http://www.example.org/lang/06816"

def clash1 : Db Unit := ⟨((encUnistr (Heap.empty 10000) (asc "hello world") (some clashLang) 5#64 ⟨none, some 16#64, none, some 8#64⟩).get (by decide +kernel)).1, ()⟩

theorem reach_clash1 : Reach False X0 clash1 := by
  refine (Reach.init 10000 ()).step (op := .str (asc "hello world") (some clashLang) 5#64 ⟨none, some 16#64, none, some 8#64⟩)
    (out := .word (encodeLongstr 16#64)) ?_ ?_
  · refine ⟨⟨?_, ?_, ?_, ?_, ?_⟩, by decide +kernel, ?_, Or.inl rfl, fun hc => hc.elim⟩
    · intro o e; cases e
    · intro o e; cases e
    · rintro o ⟨rfl⟩; exact ⟨rfl, by unfold Aligned; decide⟩
    · rintro o ⟨rfl⟩; exact ⟨rfl, by unfold Aligned; decide⟩
    · rintro o ⟨rfl⟩ e; exact absurd e (by decide)
    · rintro x ⟨rfl⟩; decide +kernel
  · have hc : ((encUnistr (Heap.empty 10000) (asc "hello world") (some clashLang) 5#64 ⟨none, some 16#64, none, some 8#64⟩).get (by decide +kernel)).2 = encodeLongstr 16#64 := by
      decide +kernel
    simp only [run]
    rw [map_get (show (encUnistr (Heap.empty 10000) (asc "hello world") (some clashLang) 5#64 ⟨none, some 16#64, none, some 8#64⟩).isSome = true by decide +kernel), hc]
    rfl

/-- With the default hash array of 10000 slots: encoding "hello world" with this language string creates a long string for the language,
which falls into the same hash bucket and is dropped from it. Encoding the language string again creates a second object with the same
contents although the first is alive and in use. -/
theorem C19_clash_counterexample : ∃ s : Db Unit, Reach False X0 s ∧ keyOf s.h 8#64 = some (clashLang ++ [0#8], none, 5#64) ∧ InUse s.h 8#64 ∧
    ∃ h', encUnistr s.h clashLang none 5#64 ⟨none, some 24#64, none, none⟩ = some (h', encodeLongstr 24#64) ∧
      keyOf h' 24#64 = some (clashLang ++ [0#8], none, 5#64) ∧ keyOf h' 8#64 = some (clashLang ++ [0#8], none, 5#64) := by
  refine ⟨clash1, reach_clash1, by decide +kernel, ?_, ?_⟩
  · refine Or.inr ⟨16#64, ?_⟩
    have : (clash1.h.lstrs 16#64).map (·.extra) = some (encodeLongstr 8#64) := by decide +kernel
    cases hx : clash1.h.lstrs 16#64 with
    | none => rw [hx] at this; cases this
    | some x => rw [hx] at this; exact ⟨x, rfl, by simpa using this⟩
  · refine ⟨((encUnistr clash1.h clashLang none 5#64 ⟨none, some 24#64, none, none⟩).get (by decide +kernel)).1, ?_, by decide +kernel, by decide +kernel⟩
    have h2 : ((encUnistr clash1.h clashLang none 5#64 ⟨none, some 24#64, none, none⟩).get (by decide +kernel)).2 = encodeLongstr 24#64 := by
      decide +kernel
    rw [← h2]
    simp

/-! ## C20: round trip -/

/-- Decoding what wg_encode_str, wg_encode_xmlliteral or wg_encode_uri returned gives the string, its length, its extra string and, through a
buffer that is large enough, the string with its terminating 0. The result is WG_ILLEGAL only if an allocation failed. -/
theorem C20_str_round_trip (X : Ix ι) {s s' : Db ι} (hr : Reach C X s) {str : List Byte} {lang : Option (List Byte)} {type : Word} {al : StrAlloc}
    (hp : Pre C X s (.str str lang type al)) {w : Word} (he : run X s (.str str lang type al) = some (s', .word w)) :
    (w = illegal ∧ (al.short = none ∨ al.long = none ∨ al.exShort = none ∨ al.exLong = none)) ∨
    (decodeStr s'.h w = some str ∧ decodeLen s'.h w = some (str.length : Int) ∧ decodeLang s'.h w type = some lang ∧
      (∀ buflen, 1 ≤ buflen → ∃ out n, decodeCopy s'.h w buflen type = some (out, n) ∧ out.length ≤ buflen ∧
        (str.length < buflen → out = str ++ [0#8] ∧ n = str.length) ∧ (buflen ≤ str.length → n = -1)) ∧
      ((isShortstr w = true ∧ type = 5#64) ∨ (isLongstr w = true ∧ (s'.h.lstrs (decodeLongstr w)).map (·.type) = some type))) := by
  have hI := reach_inv hr
  obtain ⟨p1, p2, p3, p4, p5⟩ := hp
  obtain ⟨h', w', e, g1, g2, g3, g4, g5⟩ := encUnistr_ok hI p1 p2 p3 (show StrType type by unfold StrType; tauto) p5
  simp only [run, e, Option.map_some, Option.some.injEq, Prod.mk.injEq, Out.word.injEq] at he
  obtain ⟨rfl, rfl⟩ := he
  rcases g4 with ⟨a, b⟩ | ⟨a, b, c⟩ | ⟨a, b, c⟩
  · left
    refine ⟨a, ?_⟩
    rcases b with ⟨_, b⟩ | ⟨_, b | ⟨x, _, b⟩⟩
    · exact Or.inl b
    · exact Or.inr (Or.inl b)
    · split_ifs at b
      · exact Or.inr (Or.inr (Or.inl b))
      · exact Or.inr (Or.inr (Or.inr b))
  · right
    obtain ⟨rfl, rfl, hl⟩ := a
    obtain ⟨d1, d2, d3, _⟩ := decode_short (h := h') b p2 hl c 1 (by omega)
    refine ⟨d1, d2, d3, fun buflen hb => ?_, Or.inl ⟨b, rfl⟩⟩
    have d4 := (decode_short (h := h') b p2 hl c buflen hb).2.2.2
    by_cases hc : str.length < buflen
    · rw [if_pos hc] at d4
      exact ⟨_, _, d4, by simp; omega, fun _ => ⟨rfl, rfl⟩, fun h => by omega⟩
    · rw [if_neg hc] at d4
      exact ⟨_, _, d4, by simp, fun h => by omega, fun _ => rfl⟩
  · right
    have ht8 : type ≠ 8#64 := by rcases p4 with rfl | rfl | rfl <;> decide
    obtain ⟨d1, d2, d3, _⟩ := decode_long g1.str b p2 c ht8 1
    obtain ⟨x, pad, e1, e2, e3, e4, _⟩ := bytes_of_key g1.str b c
    refine ⟨d1, d2, d3, fun buflen hb => ?_, Or.inr ⟨b, by rw [e1]; simp [e4]⟩⟩
    have d4 := (decode_long g1.str b p2 c ht8 buflen).2.2.2
    by_cases hc : str.length < buflen
    · rw [if_pos hc] at d4
      exact ⟨_, _, d4, by simp; omega, fun _ => ⟨rfl, rfl⟩, fun h => by omega⟩
    · rw [if_neg hc] at d4
      exact ⟨_, _, d4, by simp, fun h => by omega, fun _ => rfl⟩

/-- Blobs: any bytes. wg_decode_blob_len returns wg_decode_unistr_len + 1. -/
theorem C20_blob_round_trip (X : Ix ι) {s s' : Db ι} (hr : Reach C X s) {data : List Byte} {lang : Option (List Byte)} {al : StrAlloc}
    (hp : Pre C X s (.blob data lang al)) {w : Word} (he : run X s (.blob data lang al) = some (s', .word w)) :
    (w = illegal ∧ (al.long = none ∨ al.exShort = none ∨ al.exLong = none)) ∨
    ((∃ bs, decodeBytes s'.h w = some bs ∧ bs.take data.length = data) ∧ (decodeLen s'.h w).map (· + 1) = some (data.length : Int) ∧
      decodeLang s'.h w 8#64 = some lang ∧
      (∀ buflen, decodeCopy s'.h w buflen 8#64 = some (if data.length ≤ buflen then (data, (data.length : Int)) else ([], -1))) ∧
      isLongstr w = true ∧ (s'.h.lstrs (decodeLongstr w)).map (·.type) = some 8#64) := by
  have hI := reach_inv hr
  obtain ⟨p1, p3, p5⟩ := hp
  obtain ⟨h', w', e, g1, g2, g3, g4, g5⟩ := encUniblob_ok hI p1 data p3 (show StrType 8#64 by unfold StrType; tauto) p5
  simp only [run, e, Option.map_some, Option.some.injEq, Prod.mk.injEq, Out.word.injEq] at he
  obtain ⟨rfl, rfl⟩ := he
  rcases g4 with ⟨a, b⟩ | ⟨b, c⟩
  · left
    refine ⟨a, ?_⟩
    rcases b with b | ⟨x, _, b⟩
    · exact Or.inl b
    · split_ifs at b
      · exact Or.inr (Or.inl b)
      · exact Or.inr (Or.inr b)
  · right
    obtain ⟨d1, d2, d3, _⟩ := decode_blob g1.str b c 1
    obtain ⟨x, pad, e1, e2, e3, e4, _⟩ := bytes_of_key g1.str b c
    exact ⟨d1, d2, d3, fun buflen => (decode_blob g1.str b c buflen).2.2.2, b, by rw [e1]; simp [e4]⟩

example : decodeStr clash1.h (encodeLongstr 16#64) = some (asc "hello world") ∧ decodeLang clash1.h (encodeLongstr 16#64) 5#64 = some (some clashLang) ∧
    decodeLen clash1.h (encodeLongstr 8#64) = some 33 := by decide +kernel

/-- A value that stays in a field keeps its meaning: see also `C13_last_write_partial`. For a value that is merely kept by the program, one call
that leaves it allocated leaves its meaning. -/
theorem C20_stable (X : Ix ι) {s s' : Db ι} (hr : Reach C X s) {op : Op} {out : Out} (hp : Pre C X s op) (he : run X s op = some (s', out))
    {w : Word} (h1 : LiveS s.h w) (h2 : LiveS s'.h w) : decodeStr s'.h w = decodeStr s.h w ∧ decodeLen s'.h w = decodeLen s.h w ∧
      ∀ t, decodeLang s'.h w t = decodeLang s.h w t := by
  have := (step_of hr hp he).value w h1 h2
  exact ⟨this.1, this.2.2.1, this.2.2.2.1⟩

/-! ## C45: failing calls -/

/-- A failing wg_set_field, wg_set_new_field or wg_delete_record: refusals (−1, −2) change nothing; after the index failures −3 and −4 all records
exist, all fields but the one written are as before, all values of fields can be read as before, and the database is again one of the states the
other theorems speak about. Partial: `Pre` excludes unchecked list cell allocation and index failures while storing a reference (see the
counterexamples); index creation is C43. -/
theorem C45_failures_partial (X : Ix ι) {s s' : Db ι} (hr : Reach C X s) {op : Op} (hp : Pre C X s op) {c : Int} (hc : c < 0)
    (he : run X s op = some (s', .code c)) :
    Reach C X s' ∧ (c = -1 ∨ c = -2 → s' = s) ∧ (∀ r, (view s'.h r).map (·.length) = (view s.h r).map (·.length)) ∧
      ∀ r i, Leaves r i op ∨ op = .delete r → (view s'.h r).bind (·[i]?) = (view s.h r).bind (·[i]?) ∧
        ∀ w, (view s.h r).bind (·[i]?) = some w → SameValue s.h s'.h w := by
  have ok := step_of hr hp he
  have hI := reach_inv hr
  have same : view s'.h = view s.h → (∀ r, (view s'.h r).map (·.length) = (view s.h r).map (·.length)) ∧
      ∀ r i, Leaves r i op ∨ op = .delete r → (view s'.h r).bind (·[i]?) = (view s.h r).bind (·[i]?) ∧
        ∀ w, (view s.h r).bind (·[i]?) = some w → SameValue s.h s'.h w := by
    intro e
    refine ⟨fun r => by rw [e], fun r i _ => ⟨by rw [e], fun w hw => ?_⟩⟩
    cases hv : view s.h r with
    | none => rw [hv] at hw; cases hw
    | some fs =>
      rw [hv, Option.bind_some] at hw
      exact ok.value w (view_live hI hv hw) (view_live ok.inv (by rw [e]; exact hv) hw)
  have st : ∀ (p : Word) (j : Int) (v : Word), (view s.h).has p j → (∀ r i, Leaves r i op ∨ op = .delete r → ¬ (p = r ∧ j = (i : Int))) →
      view s'.h = (view s.h).store p j.toNat v → (∀ r, (view s'.h r).map (·.length) = (view s.h r).map (·.length)) ∧
      ∀ r i, Leaves r i op ∨ op = .delete r → (view s'.h r).bind (·[i]?) = (view s.h r).bind (·[i]?) ∧
        ∀ w, (view s.h r).bind (·[i]?) = some w → SameValue s.h s'.h w := by
    intro p j v hh hop e
    refine ⟨fun r => ?_, fun r i hl => ?_⟩
    · rw [e]; simp only [Table.store]; split_ifs <;> simp [Function.comp_def]
    · have hj : ¬ (r = p ∧ i = j.toNat) := by
        obtain ⟨f0, g1, g2, g3⟩ := hh
        rintro ⟨rfl, rfl⟩
        exact hop r j.toNat hl ⟨rfl, by omega⟩
      obtain ⟨g1, g2⟩ := store_other (T := view s.h) (v := v) hj
      rw [← e] at g1 g2
      refine ⟨g1, fun w hw => ?_⟩
      have hw' := hw
      rw [← g1] at hw'
      cases hv : view s.h r with
      | none => rw [hv] at hw; cases hw
      | some fs =>
        cases hv' : view s'.h r with
        | none => rw [hv'] at hw'; cases hw'
        | some fs' =>
          rw [hv, Option.bind_some] at hw
          rw [hv', Option.bind_some] at hw'
          exact ok.value w (view_live hI hv hw) (view_live ok.inv hv' hw')
  refine ⟨hr.step hp he, ?_, ?_⟩
  · intro hc'
    cases op with
    | set r i v cell =>
      obtain ⟨s1, c1, e1, e2, _⟩ := setField_ok X hI hp
      simp only [run, e1, Option.map_some, Option.some.injEq, Prod.mk.injEq, Out.code.injEq] at he
      obtain ⟨rfl, rfl⟩ := he
      cases e2 with
      | refused h1 h2 => exact h1
      | same h1 => exact h1
      | index h1 h2 => omega
      | stored h1 h2 h3 h4 h5 h6 => omega
    | setNew r i v cell =>
      obtain ⟨q1, q2, q3, q4⟩ := hp
      obtain ⟨s1, c1, e1, e2, _⟩ := setNewField_ok X hI q1 q2 q3 q4 (i := i)
      simp only [run, e1, Option.map_some, Option.some.injEq, Prod.mk.injEq, Out.code.injEq] at he
      obtain ⟨rfl, rfl⟩ := he
      cases e2 with
      | refused h1 h2 => exact h1
      | same h1 => exact h1
      | index h1 h2 => omega
      | stored h1 h2 h3 h4 h5 h6 => omega
    | delete r =>
      obtain ⟨s1, c1, e1, e2, _⟩ := deleteRecord_ok X hI hp
      simp only [run, e1, Option.map_some, Option.some.injEq, Prod.mk.injEq, Out.code.injEq] at he
      obtain ⟨rfl, rfl⟩ := he
      cases e2 with
      | refused h1 h2 => exact h1
      | index h1 h2 => omega
      | gone h1 h2 h3 h4 h5 => omega
    | free w =>
      obtain ⟨h1, e1, _⟩ := freeEncoded_ok hI hp.1 hp.2
      simp only [run, e1, Option.map_some, Option.some.injEq, Prod.mk.injEq, Out.code.injEq] at he
      omega
    | create _ _ _ => exact ok.spec.elim
    | int _ _ => exact ok.spec.elim
    | double _ _ => exact ok.spec.elim
    | str _ _ _ _ => exact ok.spec.elim
    | blob _ _ _ => exact ok.spec.elim
  · have hsp := ok.spec
    cases op with
    | set r i v cell =>
      rcases hsp with ⟨_, _, e⟩ | ⟨hh, ⟨_, e⟩ | ⟨_, e | e⟩⟩
      · exact same e
      · omega
      · exact same e
      · exact st r i v hh (by rintro p j (hl | hl); · exact hl
                              · cases hl) e
    | setNew r i v cell =>
      rcases hsp with ⟨_, _, e⟩ | ⟨hh, _, ⟨_, e⟩ | ⟨_, e | e⟩⟩
      · exact same e
      · omega
      · exact same e
      · exact st r i v hh (by rintro p j (hl | hl); · exact hl
                              · cases hl) e
    | delete r =>
      rcases hsp with ⟨_, _, e⟩ | ⟨_, ⟨_, e⟩ | ⟨_, e⟩⟩
      · exact same e
      · omega
      · exact same e
    | free w => exact same hsp
    | create _ _ _ => exact hsp.elim
    | int _ _ => exact hsp.elim
    | double _ _ => exact hsp.elim
    | str _ _ _ _ => exact hsp.elim
    | blob _ _ _ => exact hsp.elim

example : run X0 d7 (.delete 8#64) = some (d7, .code (-1)) := by
  have h1 : deleteRecord X0 d7 8#64 = some (d7, -1) := by rfl
  simp only [run, h1]; rfl

/-- Defect: a failed allocation of a list cell is not noticed; the cell is written at offset 0, over the header of the database (undefined
behaviour here). -/
theorem C45_cell_counterexample : ∃ s : Db Unit, Reach True X0 s ∧ (∃ rc, s.h.recs 16#64 = some rc) ∧ SOK s.h 8#64 ∧
    setField X0 s 16#64 0 8#64 none = none :=
  ⟨d2, reach_d2, ⟨⟨0, 0#64, [0#64, 0#64]⟩, by decide +kernel⟩, sok_rec (rc := ⟨0, 0#64, [0#64, 0#64]⟩) (by decide) (by decide +kernel),
    by decide +kernel⟩

/-- Indexes on every column whose additions fail. -/
def Xbad : Ix Unit := ⟨fun _ x _ => (x, 0), fun _ x _ => (x, 0), fun _ x _ _ => (x, -2), fun _ x _ _ => (x, 0), fun _ _ => true, fun _ _ => true⟩

def bad1 : Db Unit := (createRecord Xbad d0 2 0 (some 8#64)).1
def bad2 : Db Unit := (createRecord Xbad bad1 2 0 (some 16#64)).1
def bad3 : Db Unit := ((setField Xbad bad2 16#64 0 8#64 (some 48#64)).get (by decide +kernel)).1
def bad4 : Db Unit := ((deleteRecord Xbad bad3 8#64).get (by decide +kernel)).1

/-- Defect: if the index update fails (−3) while a reference is stored, the field holds the reference but the backlink is missing: the record
referred to can be deleted, and the field then refers to a record that does not exist. -/
theorem C45_index_failure_counterexample :
    (∃ s : Db Unit, Reach True Xbad s ∧ s.h.recs 8#64 ≠ none ∧ s = bad2) ∧
    setField Xbad bad2 16#64 0 8#64 (some 48#64) = some (bad3, -3) ∧ deleteRecord Xbad bad3 8#64 = some (bad4, 0) ∧
    getField bad4.h 16#64 0 = some 8#64 ∧ bad4.h.recs 8#64 = none := by
  refine ⟨⟨bad2, ?_, by decide +kernel, rfl⟩, ?_, ?_, by decide +kernel, by decide +kernel⟩
  · have r1 : Reach True Xbad bad1 := (Reach.init 10000 ()).step (op := .create 2 0 (some 8#64)) (out := .word 8#64)
      (by rintro o ⟨rfl⟩; exact ⟨rfl, by decide⟩) rfl
    exact r1.step (op := .create 2 0 (some 16#64)) (out := .word 16#64) (by rintro o ⟨rfl⟩; exact ⟨by decide +kernel, by decide⟩) rfl
  · have h2 : ((setField Xbad bad2 16#64 0 8#64 (some 48#64)).get (by decide +kernel)).2 = -3 := by decide +kernel
    rw [← h2]; simp [bad3]
  · have h2 : ((deleteRecord Xbad bad3 8#64).get (by decide +kernel)).2 = 0 := by decide +kernel
    rw [← h2]; simp [bad4]

end WG.Recs
