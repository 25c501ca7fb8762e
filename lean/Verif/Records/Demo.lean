import Verif.Records.Lemmas
/-! # A concrete history, to show that the hypotheses of the theorems are met -/
namespace WG.Recs

/-- No indexes. -/
def X0 : Ix Unit := ⟨fun _ x _ => (x, 0), fun _ x _ => (x, 0), fun _ x _ _ => (x, 0), fun _ x _ _ => (x, 0), fun _ _ => false, fun _ _ => false⟩

/-- The bytes of an ASCII string. -/
def asc (s : String) : List Byte := s.toList.map fun c => BitVec.ofNat 8 c.toNat

def longText : List Byte := asc "a string of more than thirty-two bytes"

def d0 : Db Unit := ⟨Heap.empty 10000, ()⟩
/-- Two records of two fields. -/
def d1 : Db Unit := (createRecord X0 d0 2 0 (some 8#64)).1
def d2 : Db Unit := (createRecord X0 d1 2 0 (some 16#64)).1
/-- A long string, an integer that does not fit into a word. -/
def d3 : Db Unit := ⟨((encUnistr d2.h longText none 5#64 ⟨none, some 32#64, none, none⟩).get (by decide +kernel)).1, ()⟩
def d4 : Db Unit := ⟨(encInt d3.h 0x7000000000000000#64 (some 40#64)).1, ()⟩
/-- The second record refers to the first; both hold the string. -/
def d5 : Db Unit := ((setField X0 d4 16#64 0 8#64 (some 48#64)).get (by decide +kernel)).1
def d6 : Db Unit := ((setField X0 d5 16#64 1 (encodeLongstr 32#64) none).get (by decide +kernel)).1
def d7 : Db Unit := ((setNewField X0 d6 8#64 1 (encodeLongstr 32#64) none).get (by decide +kernel)).1

/-- Steps on concrete states. -/
theorem map_get {α β : Type} {y : Option α} (hs : y.isSome = true) (f : α → β) : y.map f = some (f (y.get hs)) := by
  cases y with
  | none => cases hs
  | some y => rfl

theorem sok_rec {h : Heap} {v : Word} {rc : Rec} (hk : kind v = .rcd) (hr : h.recs v = some rc) : SOK h v := by
  refine ⟨by rw [LiveS, hk]; trivial, fun _ => ⟨rc, hr⟩, ?_⟩
  rintro (k | k | k) <;> rw [hk] at k <;> cases k

theorem reach_d4 : Reach True X0 d4 := by
  have r1 : Reach True X0 d1 := (Reach.init 10000 ()).step (op := .create 2 0 (some 8#64)) (out := .word 8#64)
    (by rintro o ⟨rfl⟩; exact ⟨rfl, by decide⟩) rfl
  have r2 : Reach True X0 d2 := r1.step (op := .create 2 0 (some 16#64)) (out := .word 16#64)
    (by rintro o ⟨rfl⟩; exact ⟨by decide +kernel, by decide⟩) rfl
  have r3 : Reach True X0 d3 := by
    refine r2.step (op := .str longText none 5#64 ⟨none, some 32#64, none, none⟩) (out := .word (encodeLongstr 32#64)) ?_ ?_
    · refine ⟨⟨?_, ?_, ?_, ?_, ?_⟩, by decide +kernel, (fun x e => by cases e), Or.inl rfl, fun _ hc => ?_⟩
      · intro o e; cases e
      · intro o e; cases e
      · rintro o ⟨rfl⟩; exact ⟨by decide +kernel, by unfold Aligned; decide⟩
      · intro o e; cases e
      · intro o _ e; cases e
      · obtain ⟨_, x, e, _⟩ := hc; cases e
    · have hc : ((encUnistr d2.h longText none 5#64 ⟨none, some 32#64, none, none⟩).get (by decide +kernel)).2 = encodeLongstr 32#64 := by
        decide +kernel
      simp only [run]
      rw [map_get (by decide +kernel), hc]; rfl
  exact r3.step (op := .int 0x7000000000000000#64 (some 40#64)) (out := .word (encodeFullintOffset 40#64))
    (by rintro o ⟨rfl⟩; exact ⟨by decide +kernel, by unfold Aligned; decide⟩) (by rfl)

theorem pre_d5 : SetPre X0 d4 16#64 0 8#64 (some 48#64) := by
  refine ⟨⟨_, (by rfl)⟩, sok_rec (rc := ⟨0, 0#64, [0#64, 0#64]⟩) (by decide) (by decide +kernel), ?_, ?_, ?_⟩
  · intro _; exact ⟨48#64, rfl, by decide +kernel, by decide⟩
  · intro _ _ e; exact setField_index (fun _ _ => by simp [X0]) e
  · intro rc h1 h2
    have : rc = ⟨0, 0#64, [0#64, 0#64]⟩ := by
      have : d4.h.recs 16#64 = some ⟨0, 0#64, [0#64, 0#64]⟩ := by decide +kernel
      rw [this] at h1; cases h1; rfl
    subst this
    simp at h2

theorem reach_d5 : Reach True X0 d5 := by
  refine reach_d4.step (op := .set 16#64 0 8#64 (some 48#64)) (out := .code 0) pre_d5 ?_
  have hc : ((setField X0 d4 16#64 0 8#64 (some 48#64)).get (by decide +kernel)).2 = 0 := by decide +kernel
  simp only [run]
  rw [map_get (by decide +kernel), hc]; rfl

theorem pre_d6 : SetPre X0 d5 16#64 1 (encodeLongstr 32#64) none := by
  have hr : d5.h.recs 16#64 = some ⟨0, 0#64, [8#64, 0#64]⟩ := by decide +kernel
  refine ⟨⟨_, hr⟩, sok_long (k := (longText ++ [0#8], none, 5#64)) (by decide) (by decide +kernel), ?_, ?_, ?_⟩
  · intro e; exact absurd e (by decide)
  · intro _ _ e; exact setField_index (fun _ _ => by simp [X0]) e
  · intro rc h1 h2
    rw [hr] at h1; cases h1
    simp at h2

theorem reach_d6 : Reach True X0 d6 := by
  refine reach_d5.step (op := .set 16#64 1 (encodeLongstr 32#64) none) (out := .code 0) pre_d6 ?_
  have hc : ((setField X0 d5 16#64 1 (encodeLongstr 32#64) none).get (by decide +kernel)).2 = 0 := by decide +kernel
  simp only [run]
  rw [map_get (by decide +kernel), hc]; rfl

theorem pre_d7 : Pre True X0 d6 (.setNew 8#64 1 (encodeLongstr 32#64) none) := by
  refine ⟨⟨⟨0, 48#64, [0#64, 0#64]⟩, by decide +kernel⟩, sok_long (k := (longText ++ [0#8], none, 5#64)) (by decide) (by decide +kernel), ?_, ?_⟩
  · intro e; exact absurd e (by decide)
  · intro _ _ e; exact setNewField_index (fun _ _ => by simp [X0]) e

theorem reach_d7 : Reach True X0 d7 := by
  refine reach_d6.step (op := .setNew 8#64 1 (encodeLongstr 32#64) none) (out := .code 0) pre_d7 ?_
  have hc : ((setNewField X0 d6 8#64 1 (encodeLongstr 32#64) none).get (by decide +kernel)).2 = 0 := by decide +kernel
  simp only [run]
  rw [map_get (by decide +kernel), hc]; rfl

end WG.Recs
