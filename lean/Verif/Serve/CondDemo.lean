import Verif.Serve.CondProps
import Verif.Serve.SearchDemo
import Verif.Param.Model

/-!
# The server: conditions of requests, cases and counterexamples
-/
namespace WG.Serve
open WG.Csv (Str Byte asc)
open Spec

/-- `field=0&compare=gtequal&value=5&value=2&type=int&field=1&compare=equal&type=int` -/
def demoAsk : Params :=
  [(asc "field", asc "0"), (asc "compare", asc "gtequal"), (asc "value", asc "5"), (asc "value", asc "2"), (asc "type", asc "int"), (asc "field", asc "1"),
    (asc "compare", asc "equal"), (asc "type", asc "int")]

def demoArgs : List (Query.Arg PVal) := [⟨0, .gtEqual, .int 5⟩, ⟨1, .equal, .int 2⟩]

theorem demo_asks : Asks demoAsk demoArgs := by
  refine ⟨by decide, fun i a h => ?_⟩
  match i with
  | 0 =>
    cases h
    exact ⟨⟨by decide +kernel, by decide⟩, by rw [show given "compare" demoAsk 0 = some (asc "gtequal") from by decide]; exact .gtEqual,
      by rw [show given "type" demoAsk 0 = some (asc "int") from by decide, show given "value" demoAsk 0 = some (Json.digits 5) from by decide +kernel]; exact .int 5 (by decide)⟩
  | 1 =>
    cases h
    exact ⟨⟨by decide +kernel, by decide⟩, by rw [show given "compare" demoAsk 1 = some (asc "equal") from by decide]; exact .equal,
      by rw [show given "type" demoAsk 1 = some (asc "int") from by decide, show given "value" demoAsk 1 = some (Json.digits 2) from by decide +kernel]; exact .int 2 (by decide)⟩
  | i + 2 => simp [demoArgs] at h

/-- Integers as values of the example database of C25. -/
def demoEnc : PVal → Int
  | .int i => i
  | _ => 7

/-- In the example database of C25 the request finds the records with at least 5 in column 0 and 2 in column 1. -/
theorem demo_cond : ∃ q rows, condQuery (Query.exDB Query.exVals) demoEnc 200 demoAsk = some q ∧ Query.Fetches (Query.exDB Query.exVals) 200 q rows ∧ rows.Nodup ∧
    ∀ r, r ∈ rows ↔ r ∈ (Query.exDB Query.exVals).recs ∧ ∀ a ∈ demoArgs, Query.Sat (Query.exDB Query.exVals) r ⟨a.col, a.cond, demoEnc a.value⟩ := by
  obtain ⟨q, rows, h1, h2, h3, h4, _⟩ := C78_partial (ι := Unit) (Query.exDB_wf Query.exVals (by decide)) demoEnc demoAsk demoArgs demo_asks (by decide)
    (by decide) (by intro a ha b hb h; exfalso; simp [demoArgs] at ha; rcases ha with rfl | rfl <;> cases h) 200 (by decide)
  exact ⟨q, rows, h1, h2, h3, h4⟩

theorem demo_cond_rows : (condQuery (Query.exDB Query.exVals) demoEnc 200 demoAsk).map (Query.fetchAll (Query.exDB Query.exVals) 200 20) = some [7, 10, 13, 19, 1, 4] := by decide +kernel

/-- A comparison that does not exist is refused. -/
theorem demo_refused : queryArgs [(asc "field", asc "0"), (asc "value", asc "1"), (asc "compare", asc "like")] = none :=
  C78_refused _ 0 (asc "0") (by decide) (by
    rw [show given "compare" [(asc "field", asc "0"), (asc "value", asc "1"), (asc "compare", asc "like")] 0 = some (asc "like") from by decide]
    exact .compare _ _ _ _ (by decide))

/-- A number above the `int`s is another number: 4294967301 is 5. -/
theorem C78_number_counterexample : queryArgs [(asc "field", asc "0"), (asc "value", asc "4294967301")] = some [⟨0, .equal, .int 5⟩] := by decide +kernel

/-- So is a column: 4294967296 is 0. -/
theorem C78_field_counterexample : queryArgs [(asc "field", asc "4294967296"), (asc "value", asc "1")] = some [⟨0, .equal, .int 1⟩] := by decide +kernel

/-- An empty value is the integer 0, not the empty string. -/
theorem C78_empty_counterexample : queryArgs [(asc "field", asc "0"), (asc "value", [])] = some [⟨0, .equal, .int 0⟩] := by decide +kernel

/-- Negative numbers are strings, and refused if the type is given. -/
theorem C78_negative_counterexample : queryArgs [(asc "field", asc "0"), (asc "value", asc "-5")] = some [⟨0, .equal, .str (asc "-5")⟩] ∧
    queryArgs [(asc "field", asc "0"), (asc "value", asc "-5"), (asc "type", asc "int")] = none := by decide +kernel

/-- With type=record any number is taken for an encoded value. 6 stands for a string at the start of the database, which wg_free_query_param gives to `free`. -/
theorem C78_record_counterexample : queryArgs [(asc "field", asc "0"), (asc "value", asc "6"), (asc "type", asc "record")] = some [⟨0, .equal, .record 6⟩] ∧
    Param.freeParam 6#64 = some 0#64 := by decide +kernel

/-- An empty comparison, which was meant to be the default, is refused. -/
theorem C78_default_counterexample : queryArgs [(asc "field", asc "0"), (asc "compare", []), (asc "value", asc "1")] = none := by decide +kernel

/-- The first comparison belongs to the first field, even if it is given with the second; a value without a field is left out. -/
theorem C78_shift_counterexample :
    queryArgs [(asc "field", asc "0"), (asc "value", asc "1"), (asc "field", asc "1"), (asc "compare", asc "greater"), (asc "value", asc "2"), (asc "value", asc "3")] =
      some [⟨0, .greater, .int 1⟩, ⟨1, .equal, .int 2⟩] := by decide +kernel

end WG.Serve
