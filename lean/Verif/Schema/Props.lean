import Verif.Schema.Lemmas
import Verif.Records.Demo
/-! # C46, C47: documents -/
namespace WG.Recs

variable {C : Prop} {ι : Type}

/-- The record is the top-level record of a document. -/
def IsDocument (h : Heap) (r : Word) : Prop := ∃ rc, h.recs r = some rc ∧ rc.isDoc = true

/-- wg_find_document returns a document from which the record can be reached through fewer than seven references; if it returns NULL there is
no such document. -/
theorem C46_find_document (X : Ix ι) {s : Db ι} (hr : Reach C X s) {r : Word} (hrec : ∃ rc, s.h.recs r = some rc) :
    ∃ z, findDocument s.h r = some z ∧
      (∀ d, z = some d → IsDocument s.h d ∧ ∃ n, n < 7 ∧ Links (view s.h) d r n) ∧
      (z = none → ∀ d n, IsDocument s.h d → n < 7 → ¬ Links (view s.h) d r n) := by
  obtain ⟨rc, hrc⟩ := hrec
  obtain ⟨z, e1, e2, e3⟩ := findDocRec_ok (reach_inv hr) 6 r rc hrc
  refine ⟨z, e1, fun d hd => ?_, fun hz d n hd hn hl => ?_⟩
  · obtain ⟨a, n, b, c⟩ := e2 d hd
    exact ⟨a, n, by omega, c⟩
  · obtain ⟨rd, g1, g2⟩ := hd
    have := e3 hz d n (by omega) hl rd g1
    rw [g2] at this; cases this

/-- Documents are what was created as documents: no call other than the record's deletion changes the mark. -/
theorem C46_mark_kept (X : Ix ι) {s s' : Db ι} (hr : Reach C X s) {op : Op} {out : Out} (hp : Pre C X s op) (he : run X s op = some (s', out))
    {r : Word} (h1 : ∃ rc, s.h.recs r = some rc) (h2 : ∃ rc, s'.h.recs r = some rc) : IsDocument s'.h r ↔ IsDocument s.h r := by
  have hI := reach_inv hr
  have same : s'.h.recs r = s.h.recs r → (IsDocument s'.h r ↔ IsDocument s.h r) := by intro e; unfold IsDocument; rw [e]
  have grown : ∀ (b : Word) (f : List Word) (rc : Rec), s.h.recs r = some rc → s'.h.recs r = some { rc with back := b, fields := f } →
      (IsDocument s'.h r ↔ IsDocument s.h r) := by
    intro b f rc e1 e2
    simp [IsDocument, e1, e2, Rec.isDoc]
  have st : ∀ {q : Word} {i : Nat} {v : Word}, Stored s.h s'.h q i v → (IsDocument s'.h r ↔ IsDocument s.h r) := by
    intro q i v hs
    obtain ⟨rc, e⟩ := h1
    obtain ⟨b, e2⟩ := (hs r).2 rc e
    exact grown b _ rc e e2
  have out : ∀ {q : Word} {i : Int} {v : Word} {c : Int}, SetOut C s s' q i v c → (IsDocument s'.h r ↔ IsDocument s.h r) := by
    intro q i v c ho
    cases ho with
    | refused h _ => exact same (by rw [h])
    | same h _ _ _ => exact same (by rw [h])
    | index h _ => exact same (by rw [h])
    | stored _ h _ _ _ _ => exact st h
  cases op with
  | create len bits al =>
    simp only [run, Option.some.injEq, Prod.mk.injEq] at he
    obtain ⟨e, _⟩ := he
    subst e
    apply same
    have hraw : (createRaw s.h len bits al).1.recs r = s.h.recs r := by
      simp only [createRaw]
      split_ifs with h3
      · rfl
      · cases al with
        | none => rfl
        | some o =>
          have hne : r ≠ o := by
            rintro rfl
            obtain ⟨rc, e⟩ := h1
            rw [(hp r rfl).1] at e; cases e
          exact upd_ne _ _ hne
    simp only [createRecord]
    split_ifs <;> exact hraw
  | set q i v cell =>
    obtain ⟨s1, c1, e1, e2, _⟩ := setField_ok X hI hp
    simp only [run, e1, Option.map_some, Option.some.injEq, Prod.mk.injEq] at he
    obtain ⟨rfl, _⟩ := he
    exact out e2
  | setNew q i v cell =>
    obtain ⟨q1, q2, q3, q4⟩ := hp
    obtain ⟨s1, c1, e1, e2, _⟩ := setNewField_ok X hI q1 q2 q3 q4 (i := i)
    simp only [run, e1, Option.map_some, Option.some.injEq, Prod.mk.injEq] at he
    obtain ⟨rfl, _⟩ := he
    exact out e2
  | delete q =>
    obtain ⟨s1, c1, e1, e2, _⟩ := deleteRecord_ok X hI hp
    simp only [run, e1, Option.map_some, Option.some.injEq, Prod.mk.injEq] at he
    obtain ⟨rfl, _⟩ := he
    cases e2 with
    | refused h _ => exact same (by rw [h])
    | index h _ => exact same (by rw [h])
    | gone h _ _ _ _ =>
      by_cases hq : r = q
      · subst hq
        obtain ⟨rc, e⟩ := h2
        rw [h.1] at e; cases e
      · obtain ⟨rc, e⟩ := h1
        obtain ⟨b, e2⟩ := (h.2 r hq).2 rc e
        exact grown b rc.fields rc e e2
  | int v al =>
    simp only [run, Option.some.injEq, Prod.mk.injEq] at he
    obtain ⟨e, _⟩ := he
    subst e
    apply same
    simp only [encInt]
    split_ifs
    · rfl
    · cases al <;> rfl
  | double v al =>
    simp only [run, Option.some.injEq, Prod.mk.injEq] at he
    obtain ⟨e, _⟩ := he
    subst e
    apply same
    simp only [encDouble]
    cases al <;> rfl
  | str str lang type al =>
    obtain ⟨p1, p2, p3, p4, p5⟩ := hp
    obtain ⟨h', w', e, g1, g2, _⟩ := encUnistr_ok hI p1 p2 p3 (show StrType type by unfold StrType; tauto) p5
    simp only [run, e, Option.map_some, Option.some.injEq, Prod.mk.injEq] at he
    obtain ⟨rfl, _⟩ := he
    exact same (by rw [g2.recs])
  | blob data lang al =>
    obtain ⟨p1, p3, p5⟩ := hp
    obtain ⟨h', w', e, g1, g2, _⟩ := encUniblob_ok hI p1 data p3 (show StrType 8#64 by unfold StrType; tauto) p5
    simp only [run, e, Option.map_some, Option.some.injEq, Prod.mk.injEq] at he
    obtain ⟨rfl, _⟩ := he
    exact same (by rw [g2.recs])
  | free w =>
    obtain ⟨h1', e1, e2⟩ := freeEncoded_ok hI hp.1 hp.2
    simp only [run, e1, Option.map_some, Option.some.injEq, Prod.mk.injEq] at he
    obtain ⟨rfl, _⟩ := he
    exact same (by rw [e2.2.recs])

/-- wg_delete_document on a tree-shaped document of at most seven levels (fewer than seven references from the top) succeeds, deletes its records,
and leaves every other record and the values in it as they were. Index updates are assumed not to fail. -/
theorem C47_delete_document (X : Ix ι) (hg : X.Good) {s : Db ι} (hr : Reach C X s) {d : Word} (hd : IsDocument s.h d)
    (ht : TreeShaped (view s.h) d) (hlev : ∀ x n, Links (view s.h) d x n → n < 7) :
    ∃ s', deleteDocument X s d = some (s', 0) ∧ Reach C X s' ∧ (∀ p, Below (view s.h) d p → view s'.h p = none) ∧
      (∀ p, ¬ Below (view s.h) d p → view s'.h p = view s.h p) ∧
      ∀ p fs w, view s'.h p = some fs → w ∈ fs → SameValue s.h s'.h w := by
  obtain ⟨rc, e1, e2⟩ := hd
  obtain ⟨s', g1, g2, g3, g4, g5, g6⟩ := delRec_ok (C := C) hg 7 s d (reach_inv hr) ⟨rc.fields, by simp [view, e1]⟩ ht hlev
  refine ⟨s', by simp [deleteDocument, e1, e2, g1], g6 hr, g4, g5, fun p fs w hp hw => ?_⟩
  obtain ⟨i, hi⟩ := List.mem_iff_getElem?.1 hw
  exact g3.value g2.str (view_live g2 hp hi)

/-- Records that are not documents are refused without effect. -/
theorem C47_not_document (X : Ix ι) (s : Db ι) {r : Word} (h1 : ∃ rc, s.h.recs r = some rc) (h2 : ¬ IsDocument s.h r) :
    deleteDocument X s r = some (s, -1) := by
  obtain ⟨rc, e⟩ := h1
  have : rc.isDoc = false := by
    cases hd : rc.isDoc with
    | false => rfl
    | true => exact absurd ⟨rc, e, hd⟩ h2
  simp [deleteDocument, e, this]

/-! ## A document

An object (8) with two fields, the first of which refers to an array (16); a record (24) that does not belong to it. -/

def doc1 : Db Unit := (createRecord X0 d0 2 0x30#64 (some 8#64)).1
def doc2 : Db Unit := (createRecord X0 doc1 1 0x40#64 (some 16#64)).1
def doc3 : Db Unit := (createRecord X0 doc2 1 0#64 (some 24#64)).1
def doc4 : Db Unit := ((setField X0 doc3 8#64 0 16#64 (some 48#64)).get (by decide +kernel)).1

theorem reach_doc3 : Reach True X0 doc3 := by
  have r1 : Reach True X0 doc1 := (Reach.init 10000 ()).step (op := .create 2 0x30#64 (some 8#64)) (out := .word 8#64)
    (by rintro o ⟨rfl⟩; exact ⟨rfl, by decide⟩) rfl
  have r2 : Reach True X0 doc2 := r1.step (op := .create 1 0x40#64 (some 16#64)) (out := .word 16#64)
    (by rintro o ⟨rfl⟩; exact ⟨by decide +kernel, by decide⟩) rfl
  exact r2.step (op := .create 1 0#64 (some 24#64)) (out := .word 24#64) (by rintro o ⟨rfl⟩; exact ⟨by decide +kernel, by decide⟩) rfl

theorem pre_doc4 : Pre True X0 doc3 (.set 8#64 0 16#64 (some 48#64)) := by
  have hr : doc3.h.recs 8#64 = some ⟨0x30#64, 0#64, [0#64, 0#64]⟩ := by decide +kernel
  refine ⟨⟨_, hr⟩, sok_rec (rc := ⟨0x40#64, 0#64, [0#64]⟩) (by decide) (by decide +kernel), ?_, ?_, ?_⟩
  · intro _; exact ⟨48#64, rfl, by decide +kernel, by decide⟩
  · intro _ _ e; exact setField_index (fun _ _ => by simp [X0]) e
  · intro rc h1 h2; rw [hr] at h1; cases h1; simp at h2

theorem run_doc4 : run X0 doc3 (.set 8#64 0 16#64 (some 48#64)) = some (doc4, .code 0) := by
  have hc : ((setField X0 doc3 8#64 0 16#64 (some 48#64)).get (by decide +kernel)).2 = 0 := by decide +kernel
  simp only [run]
  rw [map_get (by decide +kernel), hc]; rfl

theorem reach_doc4 : Reach True X0 doc4 := reach_doc3.step pre_doc4 run_doc4

theorem view_doc4 (p : Word) : view doc4.h p =
    if p = 8#64 then some [16#64, 0#64] else if p = 16#64 then some [0#64] else if p = 24#64 then some [0#64] else none := by
  have h3 : ∀ p, view doc3.h p =
      if p = 24#64 then some [0#64] else if p = 16#64 then some [0#64] else if p = 8#64 then some [0#64, 0#64] else none := by
    intro p
    have hr : doc3.h.recs = upd (upd (upd (fun _ => none) 8#64 (some ⟨48#64, 0#64, [0#64, 0#64]⟩)) 16#64 (some ⟨64#64, 0#64, [0#64]⟩)) 24#64
        (some ⟨0#64, 0#64, [0#64]⟩) := by rfl
    simp only [view, hr, upd]
    split_ifs <;> rfl
  rcases (step_of reach_doc3 pre_doc4 run_doc4).spec with ⟨h, _⟩ | ⟨_, ⟨_, e⟩ | ⟨h, _⟩⟩
  · cases h
  · rw [e]
    simp only [Table.store, h3]
    by_cases h8 : p = 8#64
    · subst h8; simp
    · simp only [h8, if_false]
      by_cases h16 : p = 16#64
      · subst h16; simp
      · simp [h16]
  · omega

theorem refers_doc4 {p x : Word} {i : Nat} (h : RefersAt (view doc4.h) p i x) (hx : x ≠ 0#64) : p = 8#64 ∧ i = 0 ∧ x = 16#64 := by
  obtain ⟨fs, e1, e2⟩ := h
  rw [view_doc4] at e1
  split_ifs at e1 with h1 h2 h3
  · cases e1
    match i with
    | 0 => simp at e2; exact ⟨h1, rfl, e2.symm⟩
    | 1 => simp at e2; exact absurd e2.symm hx
    | n + 2 => simp at e2
  · cases e1
    match i with
    | 0 => simp at e2; exact absurd e2.symm hx
    | n + 1 => simp at e2
  · cases e1
    match i with
    | 0 => simp at e2; exact absurd e2.symm hx
    | n + 1 => simp at e2

theorem links_doc4 {x : Word} {n : Nat} (h : Links (view doc4.h) 8#64 x n) : (x = 8#64 ∧ n = 0) ∨ (x = 16#64 ∧ n = 1) := by
  induction h with
  | here => exact Or.inl ⟨rfl, rfl⟩
  | step _ h1 h2 h3 ih =>
    obtain ⟨k, hk⟩ := refersAt_of_mem h1 h2
    obtain ⟨a, _, c⟩ := refers_doc4 hk (recVal_ne h3)
    subst a
    rcases ih with ⟨_, rfl⟩ | ⟨e, _⟩
    · exact Or.inr ⟨c, rfl⟩
    · exact absurd e (by decide)

theorem tree_doc4 : TreeShaped (view doc4.h) 8#64 := by
  refine ⟨fun p i h => ?_, fun x hx p i q j h1 h2 => ?_⟩
  · exact absurd (refers_doc4 h (by decide)).2.2 (by decide)
  · have hx0 : x ≠ 0#64 := by
      obtain ⟨n, hn⟩ := hx
      rcases links_doc4 hn with ⟨rfl, _⟩ | ⟨rfl, _⟩ <;> decide
    obtain ⟨a, b, _⟩ := refers_doc4 h1 hx0
    obtain ⟨c, d, _⟩ := refers_doc4 h2 hx0
    exact ⟨a.trans c.symm, b.trans d.symm⟩

theorem good_X0 : X0.Good := ⟨fun _ _ _ => by simp [X0], fun _ _ _ => by simp [X0], fun _ _ _ _ => by simp [X0], fun _ _ _ _ => by simp [X0]⟩

example : findDocument doc4.h 16#64 = some (some 8#64) ∧ findDocument doc4.h 24#64 = some none := by decide +kernel

example : ∃ s', deleteDocument X0 doc4 8#64 = some (s', 0) ∧ view s'.h 8#64 = none ∧ view s'.h 16#64 = none ∧ view s'.h 24#64 = some [0#64] := by
  obtain ⟨s', e, _, h1, h2, _⟩ := C47_delete_document X0 good_X0 reach_doc4 ⟨⟨0x30#64, 0#64, [16#64, 0#64]⟩, by decide +kernel, by decide⟩ tree_doc4
    (fun x n h => by rcases links_doc4 h with ⟨_, rfl⟩ | ⟨_, rfl⟩ <;> omega)
  have hl : Links (view doc4.h) 8#64 16#64 1 := .step .here (by rw [view_doc4, if_pos rfl]) (by simp) (by decide)
  refine ⟨s', e, h1 _ ⟨0, .here⟩, h1 _ ⟨1, hl⟩, ?_⟩
  rw [h2, view_doc4]
  · decide
  · rintro ⟨n, hn⟩
    rcases links_doc4 hn with ⟨h, _⟩ | ⟨h, _⟩ <;> exact absurd h (by decide)

/-- Outside the claim: if a record of the document is also referred to from elsewhere the call fails after having removed the reference to it
from the document. -/
theorem C47_shared_counterexample : ∃ s s' : Db Unit, Reach True X0 s ∧ IsDocument s.h 8#64 ∧ deleteDocument X0 s 8#64 = some (s', -1) ∧
    getField s.h 8#64 0 = some 16#64 ∧ getField s'.h 8#64 0 = some 0#64 := by
  have hpre : Pre True X0 doc4 (.set 24#64 0 16#64 (some 56#64)) := by
    have hr : doc4.h.recs 24#64 = some ⟨0#64, 0#64, [0#64]⟩ := by decide +kernel
    refine ⟨⟨_, hr⟩, sok_rec (rc := ⟨0x40#64, 48#64, [0#64]⟩) (by decide) (by decide +kernel), ?_, ?_, ?_⟩
    · intro _; exact ⟨56#64, rfl, by decide +kernel, by decide⟩
    · intro _ _ e; exact setField_index (fun _ _ => by simp [X0]) e
    · intro rc h1 h2; rw [hr] at h1; cases h1; simp at h2
  have hrun : run X0 doc4 (.set 24#64 0 16#64 (some 56#64)) =
      some (((setField X0 doc4 24#64 0 16#64 (some 56#64)).get (by decide +kernel)).1, .code 0) := by
    have hc : ((setField X0 doc4 24#64 0 16#64 (some 56#64)).get (by decide +kernel)).2 = 0 := by decide +kernel
    simp only [run]
    rw [map_get (by decide +kernel), hc]
  have hdel : (deleteDocument X0 ((setField X0 doc4 24#64 0 16#64 (some 56#64)).get (by decide +kernel)).1 8#64).isSome = true := by decide +kernel
  refine ⟨_, ((deleteDocument X0 ((setField X0 doc4 24#64 0 16#64 (some 56#64)).get (by decide +kernel)).1 8#64).get (by decide +kernel)).1,
    reach_doc4.step hpre hrun, ⟨⟨0x30#64, 0#64, [16#64, 0#64]⟩, by decide +kernel, by decide⟩, ?_, by decide +kernel, by decide +kernel⟩
  have hc : ((deleteDocument X0 ((setField X0 doc4 24#64 0 16#64 (some 56#64)).get (by decide +kernel)).1 8#64).get (by decide +kernel)).2 = -1 := by
    decide +kernel
  rw [← hc]
  simp

end WG.Recs
