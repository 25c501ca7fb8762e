import Verif.Serve.CsvProps

/-!
# The server: answers, cases and counterexamples
-/
namespace WG.Serve
open WG.Csv (Str Byte asc bytes)
open WG.Json (J JArr fmtInt)
open WG.Yajl
open Spec

/-- Two records: one with values of many types, one that refers to the other. -/
def demoF : Bool → List (SV Bool)
  | false => [.null, .int 42#64, .str (asc "a \"b\"\n") none, .str (asc "tere") (some (asc "et")), .uri (asc "x") (some (asc "http")), .char 65#8, .date 735000, .time 4320001, .var 7,
      .xml (asc "1") (asc "xsd"), .other]
  | true => [.int (-1#64), .record false]

/-- A request for JSON with the numbers of the records. -/
def demoE : Env Bool := ⟨true, true, 100, 100, 2, some (asc "f"), demoF, fun r => if r then 1000 else 2000, fun _ => asc "0.5", fun _ => true⟩

theorem demo_fits : ∀ r ∈ [false, true], ∀ v ∈ demoE.F r, Fits demoE v := by
  intro r hr v hv
  simp only [List.mem_cons, List.not_mem_nil, or_false] at hr
  rcases hr with rfl | rfl
  · have hv : v ∈ demoF false := hv
    simp only [demoF, List.mem_cons, List.not_mem_nil, or_false] at hv
    rcases hv with rfl | rfl | rfl | rfl | rfl | rfl | rfl | rfl | rfl | rfl | rfl
    all_goals first | exact trivial | (unfold Fits; decide +kernel) | skip
  · have hv : v ∈ demoF true := hv
    simp only [demoF, List.mem_cons, List.not_mem_nil, or_false] at hv
    rcases hv with rfl | rfl
    · trivial
    · unfold Fits; decide

theorem demo_search : (∃ o, searchAnswer demoE 1 [false, true] = .ok o ∧ o.term = true) ∧
    searchText demoE [false, true] = asc "f([\n[2000,[],42,\"a \\\"b\\\"\\n\",\"tere@et\",\"http:x\",\"A\",\"2013-05-12\",\"12:00:00.01\",\"?7\",\"xsd:1\",\"\"],\n[1000,-1,2000]\n]);" := by
  refine ⟨?_, by decide +kernel⟩
  rcases C74_search_partial demoE 0 [false, true] (fun _ => rfl) (by intro p hp; cases hp; decide) demo_fits (by intro r _ _; cases r <;> decide) with ⟨o, h1, _, _, h4⟩ | ⟨_, h⟩
  · exact ⟨o, h1, h4 (Or.inl rfl)⟩
  · exact absurd h (by decide +kernel)

/-- The values are shown. -/
theorem demo_shown : ∃ j, RowOf (fun _ => none) demoE true j := ⟨_, _, .cons (.int (by decide) (by decide)) (.cons .record .nil), rfl⟩

theorem demo_json : ∃ o t, searchAnswer demoE 1 [true] = .ok o ∧ o.text = asc "f(" ++ t ++ asc ");" ∧
    Text (fun _ => none) t (.arr (.cons (.arr (.cons (.int 1000#64) (.cons (.int (-1#64)) (.cons (.int 2000#64) .nil)))) .nil)) := by
  rcases C75_partial (strtod := fun _ => none) demoE 0 [true] _ rfl rfl (fun _ => rfl) (by intro p hp; cases hp; decide) (fun r hr => demo_fits r (by simp at hr; simp [hr])) (by intro r _ _; cases r <;> decide)
    (.cons ⟨_, .cons (.int (by decide) (by decide)) (.cons .record .nil), rfl⟩ .nil) with ⟨o, t, h1, h2, _, h4⟩ | ⟨_, h⟩
  · exact ⟨o, t, h1, h2, h4⟩
  · exact absurd h (by decide +kernel)

theorem demo_count : ∃ o, countAnswer demoE 12 = .ok o ∧ o.text = asc "f(12);" := by
  obtain ⟨o, h1, h2, _⟩ := C74_count demoE 12 (fun _ => rfl) (by intro p hp; cases hp; decide) (by decide)
  exact ⟨o, h1, h2.trans (by decide +kernel)⟩

/-- The same in CSV. -/
def demoC : Env Bool := ⟨false, false, 100, 0, 3, none, fun r => if r then [.str (asc "a\"b,\n") none, .null] else [.int 5#64, .record true], fun r => if r then 1000 else 2000, fun _ => asc "0.5",
  fun _ => true⟩

theorem demo_csv : ∃ o, searchAnswer demoC 1 [false, true] = .ok o ∧ o.term = true ∧ o.text = asc "5,1000\r\n\"a\"\"b,\n\",\r\n" ∧
    CsvText o.text [[asc "5", asc "1000"], [asc "a\"b,\n", []]] := by
  have hv : ∀ r ∈ [false, true], ∀ v ∈ demoC.F r, Fits demoC v := by
    intro r hr v hv
    simp only [List.mem_cons, List.not_mem_nil, or_false] at hr
    rcases hr with rfl | rfl
    · have hv : v ∈ [SV.int 5#64, SV.record true] := hv
      simp only [List.mem_cons, List.not_mem_nil, or_false] at hv
      rcases hv with rfl | rfl
      · trivial
      · unfold Fits; decide
    · have hv : v ∈ [SV.str (asc "a\"b,\n") none, SV.null] := hv
      simp only [List.mem_cons, List.not_mem_nil, or_false] at hv
      rcases hv with rfl | rfl
      · unfold Fits; decide +kernel
      · trivial
  have h5 : CsvShown demoC (.int 5#64) (asc "5") := by
    have : asc "5" = fmtInt (5#64).toInt := by decide +kernel
    rw [this]
    exact .int (by decide) (by decide)
  have h6 : CsvShown demoC (.record true) (asc "1000") := by
    have : asc "1000" = fmtInt (demoC.id true) := by decide +kernel
    rw [this]
    exact .record
  rcases C75_csv_partial demoC 0 [false, true] [[asc "5", asc "1000"], [asc "a\"b,\n", []]] rfl rfl (fun _ => rfl) (by intro p hp; cases hp) hv (by intro r _ h; cases h)
    (.cons ⟨_, .cons h5 (.cons h6 .nil), rfl⟩ (.cons ⟨_, .cons .str (.cons .null .nil), rfl⟩ .nil)) with ⟨o, h1, h2, h3⟩ | ⟨_, h⟩
  · refine ⟨o, h1, h3 (by simp), ?_, h2⟩
    have : searchAnswer demoC 1 [false, true] = .ok ⟨1000, asc "5,1000\r\n\"a\"\"b,\n\",\r\n", true⟩ := by decide +kernel
    rw [this] at h1
    cases h1
    rfl
  · exact absurd h (by decide +kernel)

/-- A table of one record. -/
def oneE (json : Bool) (maxdepth : Int) (jsonp : Option Str) (realloc : Bool) (l : List (SV Unit)) : Env Unit :=
  ⟨json, false, 100, maxdepth, if json then 2 else 3, jsonp, fun _ => l, fun _ => 8, fun _ => [], fun _ => realloc⟩

/-- **C74.** Control characters take six bytes each, and the buffer is only doubled: after 220 numbers a string of 316 control characters is written past the end of the buffer. -/
theorem C74_control_counterexample :
    searchAnswer (oneE true 100 none true (List.replicate 220 (.int 999#64) ++ [.str (List.replicate 316 1#8) none])) 1 [()] = .bad := by decide +kernel

/-- **C74.** A language of more than 97 bytes: the text is cut and has no quote at the end. -/
theorem C74_language_counterexample : ∃ o, searchAnswer (oneE true 100 none true [.str (asc "a") (some (List.replicate 98 0x61#8))]) 1 [()] = .ok o ∧
    o.text = asc "[\n[\"a@" ++ List.replicate 98 0x61#8 ++ asc "]\n]" := by
  refine ⟨⟨1000, asc "[\n[\"a@" ++ List.replicate 98 0x61#8 ++ asc "]\n]", true⟩, by decide +kernel, rfl⟩

/-- **C74.** When memory cannot be had the buffer has been freed, and it is freed again. -/
theorem C74_memory_counterexample : searchAnswer (oneE true 100 none false [.str (List.replicate 300 0x61#8) none]) 1 [()] = .freed := by decide +kernel

/-- **C74.** A search in CSV that finds nothing returns a buffer nothing has been written to. -/
theorem C74_empty_counterexample (n : Nat) (l : List (SV Unit)) : searchAnswer (oneE false 0 none true l) n [] = .ok ⟨1000, [], false⟩ := rfl

/-- **C74.** A long name of a function: the rows are written behind bytes that have not been written. -/
theorem C74_jsonp_counterexample : searchAnswer (oneE true 100 (some (List.replicate 100 0x61#8)) true []) 1 [()] = .ahead := by decide +kernel

theorem cycle_deep (o : Out) (ho : Inv o) : ∀ n, o.text.length + n < 10000000 → record (oneE true 101 none true [.record ()]) n () o = .deep := by
  intro n
  induction n generalizing o with
  | zero => intro _; rw [record]
  | succ n ih =>
    intro hl
    rw [record]
    have hg : ∀ o : Out, Inv o → o.text.length + 100 < 50000000 → ∃ o', guarantee (oneE true 101 none true [.record ()]) 100 o = .ok o' ∧ o'.text = o.text ∧ Inv o' ∧ o.text.length + 100 ≤ o'.size := by
      intro o ho hl
      rcases guar_spec (oneE true 101 none true [.record ()]) (fun _ => rfl) 100 o ho with ⟨o', h1, h2, _, h4, h5⟩ | ⟨_, h⟩
      · exact ⟨o', h1, h2, h4, by omega⟩
      · omega
    obtain ⟨o1, h1, h2, h3, h4⟩ := hg o ho (by omega)
    have hp : putc 91#8 o1 = .ok ⟨o1.size, o1.text ++ [91#8], false⟩ := by unfold putc; rw [if_pos (by rw [h2]; omega)]
    have hi : Inv ⟨o1.size, o1.text ++ [91#8], false⟩ := ⟨h3.1, by show (o1.text ++ [91#8]).length ≤ o1.size; rw [List.length_append, h2]; simp; omega⟩
    obtain ⟨o2, g1, g2, g3, g4⟩ := hg _ hi (by show (o1.text ++ [91#8]).length + 100 < 50000000; rw [List.length_append, h2]; simp; omega)
    obtain ⟨o3, k1, k2, k3, k4⟩ := hg o2 g3 (by rw [g2]; show (o1.text ++ [91#8]).length + 100 < 50000000; rw [List.length_append, h2]; simp; omega)
    have hr := ih o3 k3 (by rw [k2, g2]; show (o1.text ++ [91#8]).length + n < 10000000; rw [List.length_append, h2]; simp; omega)
    rw [h1]
    simp only [R.bind]
    show ((putc 91#8 o1).bind _) = _
    rw [hp]
    simp only [R.bind]
    show (((fields _ _ [.record ()] false ⟨o1.size, o1.text ++ [91#8], false⟩)).bind _) = _
    rw [fields, g1]
    simp only [R.bind, Bool.false_eq_true, if_false]
    unfold value
    simp only [k1, R.bind]
    rw [if_neg (by decide), hr]

/-- **C74.** With `depth=101` a record that refers to itself is printed without end: no stack of less than ten million calls is enough. -/
theorem C74_cycle_counterexample (n : Nat) (h : n < 9000000) : searchAnswer (oneE true 101 none true [.record ()]) n [()] = .deep := by
  have h0 : dataStart (oneE true 101 none true [.record ()]) true ⟨1000, [], false⟩ = .ok ⟨1000, asc "[\n", true⟩ := by decide +kernel
  unfold searchAnswer
  rw [h0]
  simp only [R.bind, rows]
  unfold row
  have h1 : guarantee (oneE true 101 none true [.record ()]) 100 ⟨1000, asc "[\n", true⟩ = .ok ⟨1000, asc "[\n", true⟩ := by decide +kernel
  rw [h1]
  simp only [R.bind, Bool.not_true, Bool.false_and, Bool.false_eq_true, if_false]
  rw [cycle_deep _ ⟨by decide, by decide +kernel⟩ n (by show (asc "[\n").length + n < 10000000; have : (asc "[\n").length = 2 := by decide
                                                        omega)]

/-- The answer that shows this value, and whether its text is one of JSON. -/
def shows (v : SV Unit) : Option (Str × Bool) :=
  match searchAnswer (oneE true 100 none true [v]) 1 [()] with
  | .ok o => (Yajl.run (fun _ => none) [.start] (o.text ++ [0x20#8])).map fun x => (o.text, x.2.good)
  | _ => none

theorem not_json {v : SV Unit} {t : Str} (h : shows v = some (t, false)) : ∃ o, searchAnswer (oneE true 100 none true [v]) 1 [()] = .ok o ∧ o.text = t ∧ ∀ j, ¬ Text (fun _ => none) o.text j := by
  unfold shows at h
  cases hs : searchAnswer (oneE true 100 none true [v]) 1 [()] with
  | ok o =>
    rw [hs] at h
    obtain ⟨x, h1, h2⟩ := Option.map_eq_some_iff.1 h
    refine ⟨o, rfl, (Prod.mk.inj h2).1, fun j hj => ?_⟩
    obtain ⟨r, e1, e2⟩ := Yajl.accept_complete hj
    have : x = (j.events, r) := Option.some.inj (h1.symm.trans e1)
    rw [this] at h2
    have h3 := (Prod.mk.inj h2).2
    simp only [e2] at h3
    cases h3
  | fail o => rw [hs] at h; cases h
  | freed => rw [hs] at h; cases h
  | bad => rw [hs] at h; cases h
  | ahead => rw [hs] at h; cases h
  | deep => rw [hs] at h; cases h

/-- **C75.** A URI with a quote, the character quote, a backslash in a blob and a string with a quote and a language: the answer is not JSON. -/
theorem C75_counterexample : ∀ v ∈ ([.uri (asc "a\"b") none, .char 0x22#8, .blob [0x5c#8] 1, .str (asc "a\"") (some (asc "et")), .xml (asc "a\nb") (asc "t")] : List (SV Unit)),
    ∃ o, searchAnswer (oneE true 100 none true [v]) 1 [()] = .ok o ∧ ∀ j, ¬ Text (fun _ => none) o.text j := by
  have go : ∀ {v t}, shows v = some (t, false) → ∃ o, searchAnswer (oneE true 100 none true [v]) 1 [()] = .ok o ∧ ∀ j, ¬ Text (fun _ => none) o.text j := fun h => by
    obtain ⟨o, h1, _, h3⟩ := not_json h
    exact ⟨o, h1, h3⟩
  intro v hv
  simp only [List.mem_cons, List.not_mem_nil, or_false] at hv
  rcases hv with rfl | rfl | rfl | rfl | rfl
  · exact go (t := asc "[\n[\"a\"b\"]\n]") (by decide +kernel)
  · exact go (t := asc "[\n[\"\"\"]\n]") (by decide +kernel)
  · exact go (t := asc "[\n[\"\\\"]\n]") (by decide +kernel)
  · exact go (t := asc "[\n[\"a\\@et\"]\n]") (by decide +kernel)
  · exact go (t := asc "[\n[\"t:a\nb\"]\n]") (by decide +kernel)

/-- **C75.** A language is written over the string where nothing was escaped: of `a/b` with the language `et` only `a\/` is left. -/
theorem C75_language_counterexample : shows (.str (asc "a/b") (some (asc "et"))) = some (asc "[\n[\"a\\/@et\"]\n]", true) := by decide +kernel

/-- **C75.** Of an integer the lower 32 bits are shown: 2^32 is shown as 0, and 2^31 as a negative number. -/
theorem C75_int_counterexample : shows (.int 0x100000000#64) = some (asc "[\n[0]\n]", true) ∧ shows (.int 0x80000000#64) = some (asc "[\n[-2147483648]\n]", true) := by decide +kernel

end WG.Serve
