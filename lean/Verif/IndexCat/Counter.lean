import Verif.IndexCat.Props
/-!
# A concrete history, and where the catalogue goes wrong

Values are integers, `none` is a variable.
-/
namespace WG.IndexCat

def vt : Vt (Option Int) := ⟨fun v => v.isNone, fun _ => false, fun a b => decide (a = b)⟩

theorem vt_ok : VOk vt fun _ => True where
  refl a _ := by simp [vt]
  symm a b _ _ h := by simp only [vt, decide_eq_true_eq] at h ⊢; exact h.symm
  trans a b c _ _ _ h1 h2 := by simp only [vt, decide_eq_true_eq] at h1 h2 ⊢; exact h1.trans h2
  var a b _ _ h := by simp only [vt, decide_eq_true_eq] at h; rw [h]
  rcd a b _ _ h := rfl
  apart a h := by simp [vt] at h

def mem0 : Nat → Tm (Option Int) := fun _ => ⟨[], 0, 0⟩
def c0 : Cat (Option Int) := Cat.empty mem0
/-- A hash index on columns 3 and 1. -/
def c1 := (create vt c0 [3, 1] HASH none ⟨10, 1, true⟩).1
/-- A T-tree on column 1. -/
def c2 := (create vt c1 [1] TTREE none ⟨11, 1, true⟩).1
/-- A T-tree on column 1 for records with 5 in column 0. -/
def c3 := (create vt c2 [1] TTREE (some [some 5]) ⟨12, 1, true⟩).1
/-- A T-tree on column 2 with an equal template. -/
def c4 := (create vt c3 [2] TTREE (some [some 5, none, none]) ⟨13, 2, true⟩).1
/-- The first of the indexes with a template is dropped. -/
def c5 := (drop vt c4 12).1

def L5 : List (Ent (Option Int)) := [⟨13, TTREE, [2], some [some 5, none, none]⟩, ⟨11, TTREE, [1], none⟩, ⟨10, HASH, [3, 1], none⟩]

theorem h1 : Hist vt (fun _ => True) c1 [⟨10, HASH, [3, 1], none⟩] := by
  have := Hist.create (V := vt) (P := fun _ => True) [3, 1] HASH none ⟨10, 1, true⟩ (Hist.init mem0) (by decide) rfl (by decide) (by decide) (by decide) (by decide)
    (by decide) (fun _ _ _ _ => trivial)
  rwa [if_pos (by decide +kernel)] at this

theorem h2 : Hist vt (fun _ => True) c2 [⟨11, TTREE, [1], none⟩, ⟨10, HASH, [3, 1], none⟩] := by
  have := Hist.create (V := vt) (P := fun _ => True) [1] TTREE none ⟨11, 1, true⟩ h1 (by decide) rfl (by decide) (by simp) (by decide) (by decide +kernel)
    (by decide +kernel) (fun _ _ _ _ => trivial)
  rwa [if_pos (by decide +kernel)] at this

theorem h3 : Hist vt (fun _ => True) c3 [⟨12, TTREE, [1], some [some 5]⟩, ⟨11, TTREE, [1], none⟩, ⟨10, HASH, [3, 1], none⟩] := by
  have := Hist.create (V := vt) (P := fun _ => True) [1] TTREE (some [some 5]) ⟨12, 1, true⟩ h2 (by decide) rfl (by decide) (by simp) (by decide) (by decide +kernel)
    (by decide +kernel) (fun _ _ _ _ => trivial)
  rwa [if_pos (by decide +kernel)] at this

theorem h4 : Hist vt (fun _ => True) c4 [⟨13, TTREE, [2], some [some 5, none, none]⟩, ⟨12, TTREE, [1], some [some 5]⟩, ⟨11, TTREE, [1], none⟩,
    ⟨10, HASH, [3, 1], none⟩] := by
  have := Hist.create (V := vt) (P := fun _ => True) [2] TTREE (some [some 5, none, none]) ⟨13, 2, true⟩ h3 (by decide) rfl (by decide) (by simp) (by decide)
    (by decide +kernel) (by decide +kernel) (fun _ _ _ _ => trivial)
  rwa [if_pos (by decide +kernel)] at this

/-- A history with templates, a hash index and a dropped index. -/
theorem h5 : Hist vt (fun _ => True) c5 L5 := by
  have := Hist.drop (V := vt) (P := fun _ => True) 12 h4 (by simp)
  rw [if_pos (by decide +kernel)] at this
  exact this

/-- The theorems of `Verif/IndexCat/Props.lean` apply to this history. -/
example : (∃ r, find vt c5 [1, 3] 0 none = some r ∧ ((r = -1 ∧ ¬∃ e ∈ L5, e.Answers vt [1, 3] 0 none) ∨ ∃ e ∈ L5, r = e.id ∧ e.Answers vt [1, 3] 0 none)) ∧
    find vt c5 [1, 3] 0 none = some 10 ∧ find vt c5 [2] TTREE (some [some 5, none]) = some 13 ∧ find vt c5 [1] 0 (some [some 5]) = some (-1) ∧
    c4.tlist = [1] ∧ c4.table 1 = [12, 10, 11] ∧ c5.ttable 0 = [13] :=
  ⟨C43_find_partial vt_ok h5 [1, 3] 0 none (fun _ h => by cases h) (fun _ h => by cases h), by decide +kernel, by decide +kernel, by decide +kernel, by decide +kernel,
    by decide +kernel, by decide +kernel⟩

example : (create vt c5 [2, 0] HASH_JSON none ⟨14, 2, true⟩).2 = 0 ∧ (create vt c5 [1, 3] HASH none ⟨14, 2, true⟩).2 = -1 :=
  ⟨by decide +kernel, by decide +kernel⟩

/-- C43 fails for indexes with several columns: one hash index on two columns makes wg_get_all_indexes write after the end of its array. -/
theorem C43_all_counterexample : Hist vt (fun _ => True) c1 [⟨10, HASH, [3, 1], none⟩] ∧ allIndexes c1 = .overflow := ⟨h1, by decide +kernel⟩

/-- C43 fails if creation fails late: wg_create_multi_index returns -1 for an invalid type, but the index (with an uninitialised tree) stays in the
chain of its column and is found afterwards; wg_drop_index and wg_get_index_type do not know it, and wg_get_all_indexes overflows its
array or returns NULL. -/
theorem C43_failed_creation_counterexample :
    let y := create vt c0 [1] TTREE_JSON none ⟨10, 1, true⟩
    y.2 = -1 ∧ find vt y.1 [1] 0 none = some 10 ∧ (drop vt y.1 10).2 = -1 ∧ indexType y.1 10 = -1 ∧
    allIndexes (create vt y.1 [2] TTREE none ⟨11, 1, true⟩).1 = .overflow := by decide +kernel

/-- C43 fails for dropped hash indexes: wg_drop_index returns -1, but the index is no longer found, and wg_get_all_indexes returns NULL although
another index exists. -/
theorem C43_drop_hash_counterexample :
    let c := (create vt (create vt c0 [1] HASH none ⟨10, 1, true⟩).1 [2] TTREE none ⟨11, 1, true⟩).1
    allIndexes c = .ids [10, 11] ∧ (drop vt c 10).2 = -1 ∧ find vt (drop vt c 10).1 [1] HASH none = some (-1) ∧ indexType (drop vt c 10).1 10 = -1 ∧
    find vt (drop vt c 10).1 [2] TTREE none = some 11 ∧ allIndexes (drop vt c 10).1 = .null := by decide +kernel

/-- C43 fails if the memory of a new template does not hold 0 at the place of the reference count, which is never written (local databases
are in memory from malloc): here it holds -1. Two indexes share the template; when the first one is dropped, the template and its match record go too, and the other index
is not found any more. -/
theorem C43_refcount_counterexample :
    let c := (create vt (create vt (Cat.empty fun _ => ⟨[], 0, -1⟩) [1] TTREE (some [some 5]) ⟨10, 1, true⟩).1 [2] TTREE (some [some 5]) ⟨11, 2, true⟩).1
    find vt c [2] TTREE (some [some 5]) = some 11 ∧ (drop vt c 10).2 = 0 ∧ (drop vt c 10).1.list = [11] ∧ (drop vt c 10).1.tlist = [] ∧
    find vt (drop vt c 10).1 [2] TTREE (some [some 5]) = some (-1) := by decide +kernel

/-- wg_multi_column_to_index_id with one negative column reads outside of the index table. -/
theorem C43_negative_counterexample (c : Cat (Option Int)) (type : Int) : find vt c [-1] type none = none := by
  simp [find, maxFields, maxCol]

/-- wg_multi_column_to_index_id with a match record of more than 128 fields does not find the index whose template fixes the same columns. -/
theorem C43_long_template_counterexample : find vt c5 [2] TTREE (some (some 5 :: List.replicate 128 none)) = some (-1) ∧
    Alike vt [some 5, none, none] (some 5 :: List.replicate 128 none) := by
  refine ⟨by decide +kernel, fun k => ?_⟩
  cases k with
  | zero => exact Or.inr ⟨some 5, some 5, rfl, rfl, rfl⟩
  | succ k =>
    refine Or.inl ⟨?_, ?_⟩
    · match k with
      | 0 | 1 => rfl
      | k + 2 => rfl
    · rw [fix_succ, fix, List.getElem?_replicate]
      by_cases hk : k < 128
      · rw [if_pos hk]; rfl
      · rw [if_neg hk]; rfl

end WG.IndexCat
