import Verif.Yajl.Props
import Verif.Json.Demo
/-! # C55, C56: the hypotheses are met; what the parser accepts or refuses wrongly -/
namespace WG.Yajl
open WG.Json
open WG.Recs

/-- strtod, for the numbers of the examples. -/
def strtod0 (l : List Byte) : Option Word := if l = asc "0.5" ∨ l = asc "0.500000" ∨ l = asc "5e-1" then some 0x3fe0000000000000#64 else none

theorem paired_plain {txt : List Byte} (h : 0x5c#8 ∉ txt) : Paired txt := by
  rintro a x b n rfl _ _ _
  simp at h

/-! ## A text of the grammar -/

/-- ` ["😀\n", -12 /* c */, 5e-1] // end` -/
def text1 : List Byte := asc " [\"\\ud83d\\ude00\\n\", -12 /* c */, 5e-1] // end"
def value1 : J := .arr (.cons (.str [0xf0#8, 0x9f#8, 0x98#8, 0x80#8, 0x0a#8]) (.cons (.int (-12#64)) (.cons (.dbl 0x3fe0000000000000#64) .nil)))

theorem text1_ok : Text strtod0 text1 value1 := by
  have sp : ∀ {g : List Byte}, Gap g → Gap (0x20#8 :: g) := fun h => .ws (by decide) h
  have s1 : Body (asc "\\ud83d\\ude00\\n") [0xf0#8, 0x9f#8, 0x98#8, 0x80#8, 0x0a#8] := by
    have h1 : Hex4 (asc "d83d") 0xd83d := .mk (i := 13) (j := 8) (k := 3) (l := 13) (.lower (by unfold Between; decide)) (.digit (by unfold Between; decide))
      (.digit (by unfold Between; decide)) (.lower (by unfold Between; decide))
    have h2 : Hex4 (asc "de00") 0xde00 := .mk (i := 13) (j := 14) (k := 0) (l := 0) (.lower (by unfold Between; decide)) (.lower (by unfold Between; decide))
      (.digit (by unfold Between; decide)) (.digit (by unfold Between; decide))
    exact .pair h1 (by decide) (by decide) h2 (by decide) (by decide) (.esc (v := 0x0a#8) (by decide) .nil)
  have v1 := Val.str (strtod := strtod0) s1
  have v2 : Val strtod0 (asc "-12") (.int (-12#64)) := .neg (l := asc "12") ⟨⟨by decide, by unfold Between; decide⟩, by decide⟩ (by decide)
  have v3 : Val strtod0 (asc "5e-1") (.dbl 0x3fe0000000000000#64) := .dbl
    ⟨[], asc "5", [], asc "e-1", rfl, Or.inl rfl, ⟨⟨by decide, by unfold Between; decide⟩, by decide⟩, Or.inl rfl,
      Or.inr ⟨0x65#8, [0x2d#8], asc "1", rfl, Or.inl rfl, Or.inr (Or.inr rfl), by decide, by unfold Between; decide⟩, Or.inr (by decide)⟩ (by decide)
  have hc : Gap (asc " /* c */") := sp (.block (l := asc " c ") (by decide) .nil)
  exact ⟨asc " ", _, asc " ", asc "// end", rfl, sp .nil, .arr (.more .nil v1 .nil (.more (sp .nil) v2 hc (.one (sp .nil) v3 .nil))), sp .nil, Or.inr ⟨asc " end", rfl, by decide⟩⟩

/-- It is imported into an empty database. -/
theorem text1_runs : ∃ s' r, parseText strtod0 (listAlloc (addrs 200)) X0 d0 text1 false true = some (s', 0, some r) ∧ Denotes s'.h r value1 := by
  have hlen : 7 * value1.events.length ≤ 200 := by simp [value1, J.events, JArr.events]
  have hroom := listAlloc_room (n := 200) (N := 7 * value1.events.length) (by omega) hlen value1.events
  obtain ⟨s', r, e1, _, _, _, e5, _, _⟩ := C55_import_document text1_ok reach_d0 good_X0 (listAlloc_ok (addrs_ok (by omega))) rfl
    (by simp only [value1, J.plain, JArr.plain]; decide) (by simp [value1, J.depth, JArr.depth]) hroom.1 hroom.2
  exact ⟨s', r, e1, e5⟩

example : checkText strtod0 text1 = some 0 := by
  rw [C55_check text1_ok, if_pos ⟨rfl, by simp [value1, J.depth, JArr.depth]⟩]

/-- Texts that are not of the grammar are refused: an import that has built two records already stops at the comma. -/
def bad1 : List Byte := asc "[[\"abc\"], {\"k\": 7}, , 8]"

theorem bad1_paired : Paired bad1 := paired_plain (by decide)

example : ∃ s' code doc, parseText strtod0 (listAlloc (addrs 500)) X0 d0 bad1 false true = some (s', code, doc) ∧ Reach True X0 s' ∧ Untouched d0.h s'.h ∧ (code = 0 ∨ code = -2) :=
  C55_safe_partial bad1_paired reach_d0 good_X0 (listAlloc_ok (addrs_ok (by omega))) (listAlloc_room (n := 500) (by omega) (by decide) []).1 false true

example : (parseText strtod0 (listAlloc (addrs 500)) X0 d0 bad1 false true).map (fun y => y.2) = some (-2, none) := by decide +kernel
example : checkText strtod0 bad1 = some (-1) := by decide +kernel

/-- Two ways of cutting a text. -/
example (cb : Nat → Ev → Option (Nat × Bool)) : (parseBlocks strtod0 cb [asc "[1,", asc "2", asc "3]"] (yajlAlloc 0)).map (fun y => (y.1.ctx, y.2)) =
    (parseBlocks strtod0 cb [asc "[", asc "1,23", asc "]"] (yajlAlloc 0)).map (fun y => (y.1.ctx, y.2)) :=
  C55_blocks_partial cb 0 (by decide) (by decide) (by decide) (paired_plain (by decide))

/-- A file. -/
example : parseFile strtod0 (listAlloc (addrs 500)) X0 d0 bad1 = some (d0, -1) := by
  rw [C55_file_partial bad1_paired (by decide), if_neg (by decide +kernel)]

/-! ## Printing and reading -/

/-- The document of C54 is printed and read again. -/
theorem sample_printable : Printable strtod0 fmt0 id sample := by
  have u : ∀ (l : List Byte), (∀ c ∈ l, Between 0x00 0x7f c) → Utf8Text l := by
    intro l
    induction l with
    | nil => exact fun _ => .nil
    | cons c l ih => exact fun h => .cons (u := [c]) (.one (h c List.mem_cons_self)) (ih fun d hd => h d (List.mem_cons_of_mem _ hd))
  have fl : FloatText (asc "0.500000") := ⟨[], asc "0", asc ".500000", [], rfl, Or.inl rfl, ⟨⟨by decide, by unfold Between; decide⟩, by decide⟩,
    Or.inr ⟨asc "500000", rfl, by decide, by unfold Between; decide⟩, Or.inl rfl, Or.inl (by decide)⟩
  simp only [sample, Printable, PrintableArr, PrintableObj, id]
  refine ⟨u _ (by unfold Between; decide), u _ (by unfold Between; decide), u _ (by unfold Between; decide), ⟨by decide, by decide,
    ⟨u _ (by unfold Between; decide), u _ (by unfold Between; decide), u _ (by unfold Between; decide), ⟨trivial, trivial⟩, trivial⟩, trivial⟩,
    u _ (by unfold Between; decide), ⟨fl, by decide⟩, trivial⟩

mutual
theorem withDbl_id : ∀ j : J, withDbl id j = j
  | .null => rfl
  | .bool _ => rfl
  | .int _ => rfl
  | .dbl _ => by simp [withDbl]
  | .str _ => rfl
  | .arr a => by rw [withDbl, withDbl_id_arr a]
  | .obj m => by rw [withDbl, withDbl_id_obj m]
theorem withDbl_id_arr : ∀ a : JArr, withDblArr id a = a
  | .nil => rfl
  | .cons v a => by rw [withDblArr, withDbl_id v, withDbl_id_arr a]
theorem withDbl_id_obj : ∀ m : JObj, withDblObj id m = m
  | .nil => rfl
  | .cons _ v m => by rw [withDblObj, withDbl_id v, withDbl_id_obj m]
end

theorem sample_round : ∃ s1 r1 txt s2 r2, parseDocument (listAlloc (addrs 200)) X0 d0 sample.events = some (s1, 0, some r1) ∧
    printText fmt0 (fun _ => []) s1.h 7 r1 = some txt ∧ parseText strtod0 (listAlloc (addrs 200)) X0 d0 txt false true = some (s2, 0, some r2) ∧ Denotes s2.h r2 sample := by
  have hlen : 7 * sample.events.length ≤ 200 := by simp [sample, J.events, JArr.events, JObj.events]
  have hroom := listAlloc_room (n := 200) (N := 7 * sample.events.length) (by omega) hlen sample.events
  have hA : (listAlloc (addrs 200) : Alloc Unit).Ok := listAlloc_ok (addrs_ok (by omega))
  obtain ⟨s1, r1, e1, e2, e3, e4, e5, e6, e7⟩ := C54_import_document reach_d0 good_X0 hA sample rfl sample_plain (by rw [sample_depth]; omega) hroom.1 hroom.2
  have hrec : isRecVal r1 = true := by
    obtain ⟨rc, h1, _⟩ := e7
    exact (reach_inv e2).recs _ _ h1
  obtain ⟨txt, s2, r2, g1, g2, _, _, g5, _⟩ := C56_round_trip (strtod := strtod0) (f := id) (A := listAlloc (addrs 200)) (fun _ => []) e7 e5 hrec sample_fits
    (Nat.le_of_eq sample_levels) sample_printable (by rw [sample_depth]; omega) rfl sample_plain reach_d0 good_X0 hA hroom.1 (by rw [withDbl_id]; exact hroom.2)
  exact ⟨s1, r1, txt, s2, r2, e1, g1, g2, by rwa [withDbl_id] at g5⟩

/-- What is printed for `["a\n", 7]`. -/
example : (genAll ((J.arr (.cons (.str (asc "a\n")) (.cons (.int 7#64) .nil))).gens fmt0) [.start]).map (fun y => y.2) =
    some (asc "[\n    \"a\\n\",\n    7\n]\n") := by
  simp only [J.gens, JArr.gens]; decide +kernel

/-! ## Counterexamples -/

def imp (t : String) : Option (Int × Option Word) := (parseText strtod0 (listAlloc (addrs 100)) X0 d0 (asc t) false true).map fun y => y.2

/-- A string or comment without end after the value is accepted. -/
theorem C55_unterminated_counterexample : imp "[1] \"abc" = some (0, some 0x8#64) ∧ imp "[1] /* x" = some (0, some 0x8#64) ∧ checkText strtod0 (asc "[1] \"abc") = some 0 := by
  decide +kernel

/-- The smallest integer of 64 bits is refused. -/
theorem C55_int_counterexample : imp "[-9223372036854775807]" = some (0, some 0x8#64) ∧ imp "[-9223372036854775808]" = some (-2, none) := by decide +kernel

/-- A first surrogate without second: the byte that follows is lost. -/
theorem C55_surrogate_counterexample : decode (asc "\\ud83dxyz") = some (asc "?yz") := by decide +kernel

/-- A first surrogate followed by `\\u`: assert fails in hexToDigit. -/
theorem C55_abort_counterexample : parseText strtod0 (listAlloc (addrs 100)) X0 d0 (asc "[\"\\ud83d\\\\u\"]") false true = none ∧ checkText strtod0 (asc "[\"\\ud83d\\\\u\"]") = none := by
  decide +kernel

/-- `null`, `true` and `false` are accepted as texts but no document is made; other values are refused. -/
theorem C55_literal_counterexample : imp "null" = some (0, none) ∧ imp "true" = some (0, none) ∧ imp "7" = some (-2, none) ∧ imp "\"x\"" = some (-2, none) := by decide +kernel

/-- A string that is not UTF-8 (stored through the API) is printed as a text that is refused. -/
theorem C56_utf8_counterexample : (genAll ((J.arr (.cons (.str [0xff#8]) .nil)).gens fmt0) [.start]).map (fun y => checkText strtod0 y.2) = some (some (-1)) := by
  simp only [J.gens, JArr.gens]; decide +kernel

end WG.Yajl
