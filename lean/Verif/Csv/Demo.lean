import Verif.Csv.Props
/-! # CSV: concrete cases and known deviations -/
namespace WG.Csv.Demo
open WG.Csv Spec

/-- A database that keeps what it is given: the values encoded so far and the records. -/
def tableEnv : Env (List Val × List (List Word)) where
  encode db v := ((db.1 ++ [v], db.2), some (BitVec.ofNat 64 db.1.length))
  create db ws := ((db.1, db.2 ++ [ws]), .ok)

/-- The records of such a database. -/
def records (db : List Val × List (List Word)) : List (List (Option Val)) := db.2.map (List.map fun w => db.1[w.toNat]?)

/-- A stand-in for atof: the length of the text. -/
def atof0 (s : Str) : Word × Bool := (BitVec.ofNat 64 s.length, false)
/-- A stand-in for `%f`. -/
def fmt0 (_ : Word) : Str := asc "1.500000"

/-- Importing a text: the records and the result. -/
def imported (errno : Bool) (file : Str) : Option (List (List (Option Val)) × Int) :=
  (importCsv tableEnv atof0 errno ([], []) file).map fun r => (records r.1, r.2)

/-- Two lines with quotes, commas and line ends inside. -/
def file1 : List Line := [⟨[.quoted (asc "a,\"b\"\n"), .plain (asc "17")], true⟩, ⟨[.plain []], false⟩, ⟨[.plain [], .quoted [], .plain (asc "2020-02-29")], false⟩]

example : (∀ l ∈ file1, ∀ f ∈ l.fields, f.Ok) ∧ file1.flatMap Line.text = asc "\"a,\"\"b\"\"\n\",17\r\n\n,\"\",2020-02-29\n" ∧
    imported false (file1.flatMap Line.text) =
      some ([[some (.str (asc "a,\"b\"\n")), some (.int 17#64)], [some .null, some .null, some (.date 737484)]], 0) := by
  refine ⟨?_, by decide +kernel, by decide +kernel⟩
  intro l hl f hf
  simp only [file1, List.mem_cons, List.not_mem_nil, or_false] at hl
  rcases hl with rfl | rfl | rfl <;> simp only [List.mem_cons, List.not_mem_nil, or_false] at hf
  · rcases hf with rfl | rfl
    · exact ⟨by decide +kernel, by decide +kernel⟩
    · exact ⟨by decide +kernel, by decide +kernel, by decide +kernel⟩
  · subst hf; exact ⟨by decide +kernel, by decide +kernel, by decide +kernel⟩
  · rcases hf with rfl | rfl | rfl
    · exact ⟨by decide +kernel, by decide +kernel, by decide +kernel⟩
    · exact ⟨by decide +kernel, by decide +kernel⟩
    · exact ⟨by decide +kernel, by decide +kernel, by decide +kernel⟩

/-- Texts and their values. -/
example : IntText (asc "-0042") (-42) ∧ parse atof0 (asc "-0042") = .int (-42) ∧ PointText (asc "-3.14") ∧ parse atof0 (asc "-3.14") = .double 5 ∧
    parse atof0 (asc "3.14.15") = .str (asc "3.14.15") ∧ parse atof0 (asc "12:30:00") = .time 4500000 ∧ parse atof0 (asc "hello 1") = .str (asc "hello 1") ∧
    parse atof0 (asc "9223372036854775808") = .str (asc "9223372036854775808") := by
  refine ⟨⟨asc "0042", ⟨by decide, by unfold Digit; decide⟩, Or.inr ⟨by decide +kernel, by decide +kernel⟩⟩, by decide +kernel,
    ⟨[45#8], asc "3", asc "14", by decide +kernel, Or.inr rfl, ⟨by decide, by unfold Digit; decide⟩, by unfold Digit; decide⟩, by decide +kernel, by decide +kernel, by decide +kernel,
    by decide +kernel, by decide +kernel⟩

/-- Two records that are exported and come back. -/
def recs1 : List (List EVal) := [[.str (asc "say \"hi\", you"), .int (-5), .null], [.date 737484, .time 4500000, .uri (asc "x") (some (asc "http://")), .double 0]]

example : (∀ r ∈ recs1, ∀ v ∈ r, Shown fmt0 v) ∧ (∀ r ∈ recs1, r ≠ [] ∧ r ≠ [.null]) ∧
    exportCsv fmt0 recs1 = some (asc "\"say \"\"hi\"\", you\",-5,\n2020-02-29,12:30:00.00,\"http://x\",1.500000\n") ∧
    (exportCsv fmt0 recs1).bind (imported false) = some ([[some (.str (asc "say \"hi\", you")), some (.int (-5)), some .null],
      [some (.date 737484), some (.time 4500000), some (.str (asc "http://x")), some (.double 8)]], 0) := by
  refine ⟨?_, ?_, by decide +kernel, by decide +kernel⟩
  · intro r hr v hv
    simp only [recs1, List.mem_cons, List.not_mem_nil, or_false] at hr
    rcases hr with rfl | rfl <;> simp only [List.mem_cons, List.not_mem_nil, or_false] at hv
    · rcases hv with rfl | rfl | rfl
      · exact ⟨by decide +kernel, by decide +kernel⟩
      · exact ⟨by decide +kernel, by decide +kernel⟩
      · trivial
    · rcases hv with rfl | rfl | rfl | rfl
      · exact ⟨by decide, by decide⟩
      · exact ⟨by decide, by decide⟩
      · exact ⟨by decide +kernel, by decide +kernel⟩
      · exact ⟨⟨[], asc "1", asc "500000", by decide +kernel, Or.inl rfl, ⟨by decide, by unfold Digit; decide⟩, by unfold Digit; decide⟩, by decide +kernel⟩
  · intro r hr
    simp only [recs1, List.mem_cons, List.not_mem_nil, or_false] at hr
    rcases hr with rfl | rfl <;> simp

/-! ## Known deviations -/

/-- A string that looks like a number, a date or a time does not stay a string, not even in quotes; a text that only starts like a date or time is one, and the rest is lost; and after
79 characters the rest of a number is lost. -/
theorem C57_lookalike_counterexample : imported false (asc "\"123\"\n") = some ([[some (.int 123)]], 0) ∧
    parse atof0 (asc "2020-02-29 meeting") = .date 737484 ∧ parse atof0 (asc "10:20:30 o'clock") = .time 3723000 ∧
    parse atof0 (List.replicate 78 48#8 ++ asc "7abc") = .int 7 := by decide +kernel

/-- errno is not cleared before the conversion: if an earlier call left ERANGE or EINVAL there, the first number of the text is read as a string. -/
theorem C57_errno_counterexample : (parseInput atof0 true (asc "42")).1 = .str (asc "42") ∧ (parseInput atof0 false (asc "42")).1 = .int 42 ∧
    imported true (asc "1,2\n") = some ([[some (.str (asc "1")), some (.int 2)]], 0) := by decide +kernel

/-- A last line without LF is not imported, and no error is reported. -/
theorem C58_last_line_counterexample : imported false (asc "1,2\n3,4") = some ([[some (.int 1), some (.int 2)]], 0) := by decide +kernel

/-- A byte 0xff after a closing quote is lost, and text after a closing quote makes a field of its own. -/
theorem C58_after_quote_counterexample : imported false (asc "\"a\"" ++ 255#8 :: asc ",b\n") = imported false (asc "\"a\",b\n") ∧
    imported false (asc "\"a\"b\n") = some ([[some (.str (asc "a")), some (.str (asc "b"))]], 0) := by decide +kernel

/-- A record with a single NULL is lost. -/
theorem C59_null_counterexample : (exportCsv fmt0 [[.null]]).bind (imported false) = some ([], 0) := by decide +kernel

/-- A character that is a comma, a quote or a line end is written as it is: the fields and records of the file are then others. -/
theorem C59_char_counterexample : (exportCsv fmt0 [[.char 44#8]]).bind (imported false) = some ([[some .null, some .null]], 0) ∧
    (exportCsv fmt0 [[.char 34#8, .int 1], [.int 2]]).bind (imported false) = some ([], 0) := by decide +kernel

/-- Integers are cut to 32 bits. -/
theorem C59_int_counterexample : (exportCsv fmt0 [[.int 4294967297]]).bind (imported false) = some ([[some (.int 1)]], 0) := by decide +kernel

/-- Strings become numbers, and XML literals and URIs lose their type. -/
theorem C59_type_counterexample : (exportCsv fmt0 [[.str (asc "7"), .xml (asc "<a/>"), .uri (asc "x") (some (asc "http://"))]]).bind (imported false) =
    some ([[some (.int 7), some (.str (asc "<a/>")), some (.str (asc "http://x"))]], 0) := by decide +kernel

/-- A URI without a prefix gives NULL to `%s`: undefined behaviour. -/
theorem C59_uri_counterexample : exportCsv fmt0 [[.uri (asc "x") none]] = none := by decide +kernel

end WG.Csv.Demo
