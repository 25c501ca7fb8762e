import Verif.Serve.SearchDelete
import Verif.Records.Demo

/-!
# The server: records of a request, cases and counterexamples
-/
namespace WG.Serve
open WG.Csv (Str)
open WG.Recs
open Spec

theorem X0_ok : ∀ h x r, -1 ≤ (X0.delRec h x r).2 := by intro h x r; simp [X0]

/-- In `d7` there are the records 8 and 16; 16 refers to 8. -/
theorem demo_page : ∃ a, searchAll X0 .search (some (Csv.asc "1")) (some (Csv.asc "5")) [8#64, 16#64] d7 = some a ∧ a.shown = [16#64] := by
  have h1 : FromIs (some (Csv.asc "1")) 1 := Or.inr ⟨by decide +kernel, by decide⟩
  have h2 : CountIs .search (some (Csv.asc "5")) 5 := Or.inr ⟨by decide +kernel, by decide⟩
  exact ⟨_, C76_search_partial X0 d7 [8#64, 16#64] h1 h2, by decide⟩

theorem demo_fields : ∃ a, searchFields X0 .search none (some (Csv.asc "1")) [16#64, 8#64] d7 = some a ∧ a.shown = [16#64] :=
  ⟨_, C76_fields_partial X0 d7 [16#64, 8#64] (Or.inl ⟨rfl, rfl⟩) (c := 1) (Or.inr ⟨by decide +kernel, by decide⟩) (by decide), by decide⟩

theorem demo_counted : ∃ a, searchAll X0 .count none none [8#64, 16#64] d7 = some a ∧ a.handled = 2 :=
  ⟨_, (C76_count_partial X0 d7 [8#64, 16#64] (Or.inl ⟨rfl, rfl⟩) (Or.inl ⟨rfl, rfl⟩)).1, by decide⟩

theorem demo_live : ∀ n ∈ [16, 8], isRecVal (BitVec.ofNat 64 n) = true ∧ ∃ fs, view d7.h (BitVec.ofNat 64 n) = some fs ∧ fs ≠ [] := by
  intro n hn
  simp only [List.mem_cons, List.not_mem_nil, or_false] at hn
  rcases hn with rfl | rfl
  · exact ⟨by decide, [8#64, encodeLongstr 32#64], by decide +kernel, by simp⟩
  · exact ⟨by decide, [0#64, encodeLongstr 32#64], by decide +kernel, by simp⟩

theorem demo_ids : ∃ a, searchIds X0 .search (Csv.asc "16,8") none d7 = some a ∧ a.shown = [16#64, 8#64] := by
  have h := (C76_ids_partial X0 d7 [16, 8] (by decide) (by decide) demo_live (cnt := none)).1 (Or.inl ⟨rfl, rfl⟩)
  have e : idsText [16, 8] = Csv.asc "16,8" := by decide +kernel
  rw [e] at h
  exact ⟨_, h, by decide⟩

/-- Record 8 stays, as 16 refers to it when it is its turn. -/
theorem demo_delete : ∃ a gone, searchAll X0 .delete none none [8#64, 16#64] d7 = some a ∧ Deleted (view d7.h) (view a.db.h) [8#64, 16#64] gone ∧ a.handled = gone.length ∧ a.handled = 1 := by
  obtain ⟨a, gone, h1, _, h3, h4⟩ := C76_delete_partial (C := True) X0 X0_ok reach_d7 (L := [8#64, 16#64]) (by decide)
    (by intro r hr; simp only [List.mem_cons, List.not_mem_nil, or_false] at hr
        rcases hr with rfl | rfl
        · exact (demo_live 8 (by simp)).2
        · exact (demo_live 16 (by simp)).2) (frm := none) (cnt := none) (Or.inl ⟨rfl, rfl⟩) (Or.inl ⟨rfl, rfl⟩)
  refine ⟨a, gone, h1, by simpa [page] using h3, h4, ?_⟩
  have e : (searchAll X0 .delete none none [8#64, 16#64] d7).map (·.handled) = some 1 := by decide +kernel
  rw [h1] at e; simpa using e

theorem demo_delete_fields : ∃ a gone, searchFields X0 .delete (some (Csv.asc "1")) none [8#64, 16#64] d7 = some a ∧ Deleted (view d7.h) (view a.db.h) [16#64] gone ∧ a.handled = gone.length := by
  obtain ⟨a, gone, h1, _, h3, h4⟩ := C76_delete_fields_partial (C := True) X0 X0_ok reach_d7 (L := [8#64, 16#64]) (by decide)
    (by intro r hr; simp only [List.mem_cons, List.not_mem_nil, or_false] at hr
        rcases hr with rfl | rfl
        · exact ⟨_, (demo_live 8 (by simp)).2.choose_spec.1⟩
        · exact ⟨_, (demo_live 16 (by simp)).2.choose_spec.1⟩) (frm := some (Csv.asc "1")) (cnt := none) (f := 1) (Or.inr ⟨by decide +kernel, by decide⟩) (Or.inl ⟨rfl, rfl⟩) (by decide)
  exact ⟨a, gone, h1, by simpa [page] using h3, h4⟩

theorem demo_delete_ids : ∃ a gone, searchIds X0 .delete (Csv.asc "16,8") none d7 = some a ∧ Deleted (view d7.h) (view a.db.h) [16#64, 8#64] gone ∧ a.handled = gone.length ∧ a.handled = 2 := by
  obtain ⟨a, gone, h1, _, h3, h4⟩ := C76_delete_ids_partial (C := True) X0 X0_ok reach_d7 (ns := [16, 8]) (by decide) (by decide) (by decide) demo_live (cnt := none) (Or.inl ⟨rfl, rfl⟩)
  have e : idsText [16, 8] = Csv.asc "16,8" := by decide +kernel
  rw [e] at h1
  refine ⟨a, gone, h1, by simpa using h3, h4, ?_⟩
  have e : (searchIds X0 .delete (Csv.asc "16,8") none d7).map (·.handled) = some 2 := by decide +kernel
  rw [h1] at e; simpa using e

/-- A search with conditions and `count=0` shows a record. -/
theorem C76_zero_counterexample : (searchFields X0 .search none (some (Csv.asc "0")) [8#64, 16#64] d7).map (·.shown) = some [8#64] ∧ page 0 0 [8#64, 16#64] = [] := by
  decide +kernel

/-- A deletion with `from=1` also deletes the record before it. -/
theorem C76_delete_from_counterexample : (searchAll X0 .delete (some (Csv.asc "1")) none [8#64, 16#64] d2).map (fun a => (view a.db.h 8#64, view a.db.h 16#64, a.handled)) = some (none, none, 2) ∧
    page 1 100000 [8#64, 16#64] = [16#64] ∧ ¬ (view d2.h 8#64 = none) := by decide +kernel

/-- A record number that is no record: memory is read as if it were one. -/
theorem C76_forged_counterexample : searchIds X0 .search (Csv.asc "24") none d7 = none ∧ view d7.h 24#64 = none := by decide +kernel

/-- A record number given twice to a deletion: the second time the record is read although it is gone. -/
theorem C76_twice_counterexample : searchIds X0 .delete (Csv.asc "8,8") none d2 = none ∧ (searchIds X0 .delete (Csv.asc "8") none d2).isSome = true := by decide +kernel

/-- With 1000 record numbers the array of them is read behind its end. -/
theorem C76_thousand_counterexample : searchIds X0 .count (idsText (List.replicate 1000 8)) none d7 = none ∧
    (searchIds X0 .count (idsText (List.replicate 999 8)) none d7).map (·.handled) = some 999 := by decide +kernel

/-- An update sets the first field of every record to 0, for any request. -/
theorem C76_update_counterexample : (searchAll X0 .update none none [8#64, 16#64] d7).map (fun a => (view a.db.h 8#64, view a.db.h 16#64)) =
    some (some [encodeSmallint 0#64, encodeLongstr 32#64], some [encodeSmallint 0#64, encodeLongstr 32#64]) := by decide +kernel

/-- With `from=-1` no record is shown, although none is before position -1. -/
theorem C76_negative_counterexample : (searchAll X0 .search (some (Csv.asc "-1")) none [8#64, 16#64] d7).map (·.shown) = some [] := by decide +kernel

end WG.Serve
