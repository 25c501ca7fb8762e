import Verif.Json.Props
/-! # C54: the hypotheses are met; what the import and the printing lose -/
namespace WG.Json
open WG.Recs

theorem reach_d0 : Reach True X0 d0 := Reach.init 10000 ()

/-- With `n` addresses for each kind of object there is room for the first `n` calls. -/
theorem listAlloc_room {n N : Nat} (hn : n < 2 ^ 60) (hN : N ≤ n) (evs : List Ev) :
    CellRoom (listAlloc (addrs n)) True X0 d0 N ∧ ¬ OutOfMemory (listAlloc (addrs n)) True X0 d0 N evs := by
  have hlen : (addrs n).length = n := by simp [addrs]
  have hu : ∀ k s', Steps True X0 d0 k s' → Used s'.h k := fun k s' h => by
    have := h.used (empty_used 10000)
    rwa [Nat.zero_add] at this
  constructor
  · intro k s' hs hk
    exact pick_some (addrs_nodup hn) (hu k s' hs).cells (by omega)
  · rintro ⟨k, s', hs, hk, hf⟩
    have h := hu k s' hs
    rcases hf with ⟨_, _, e⟩ | e | e | ⟨_, _, _, _, e | e⟩
    · exact pick_some (addrs_nodup hn) h.recs (by omega) e
    · exact pick_some (addrs_nodup hn) h.ints (by omega) e
    · exact pick_some (addrs_nodup hn) h.dbls (by omega) e
    · exact pick_some (addrs_nodup hn) h.sstrs (by omega) e
    · exact pick_some (addrs_nodup hn) h.lstrs (by omega) e

/-- `{"name": "a string of more than thirty-two bytes", "tags": [7, -3, {"x": "y", "deep": [[]]}], "": 0.5}` -/
def sample : J := .obj (.cons (asc "name") (.str longText) (.cons (asc "tags") (.arr (.cons (.int 7#64) (.cons (.int (-3#64)) (.cons
  (.obj (.cons (asc "x") (.str (asc "y")) (.cons (asc "deep") (.arr (.cons (.arr .nil) .nil)) .nil))) .nil)))) (.cons [] (.dbl 0x3fe0000000000000#64) .nil)))

/-- `%f`, for the one double of the example. -/
def fmt0 (_ : Word) : List Byte := asc "0.500000"

theorem sample_plain : sample.plain := by simp only [sample, J.plain, JArr.plain, JObj.plain]; decide +kernel
theorem sample_depth : sample.depth = 5 := by simp [sample, J.depth, JArr.depth, JObj.depth]
theorem sample_levels : sample.levels = 7 := by simp [sample, J.levels, JArr.levels, JObj.levels]
theorem sample_fits : sample.fits fmt0 := by simp only [sample, J.fits, JArr.fits, JObj.fits]; decide +kernel

/-- The import of the example into an empty database, its printing, and its deletion. -/
theorem sample_runs : ∃ s' r, parseDocument (listAlloc (addrs 200)) X0 d0 sample.events = some (s', 0, some r) ∧ Denotes s'.h r sample ∧
    printDocument fmt0 (fun _ => []) s'.h 7 r = some (sample.gens fmt0) ∧ ∃ s'', deleteDocument X0 s' r = some (s'', 0) ∧ view s''.h r = none := by
  have hlen : 7 * sample.events.length ≤ 200 := by simp [sample, J.events, JArr.events, JObj.events]
  have hroom := listAlloc_room (n := 200) (N := 7 * sample.events.length) (by omega) hlen sample.events
  have hA : (listAlloc (addrs 200) : Alloc Unit).Ok := listAlloc_ok (addrs_ok (by omega))
  have hk := (kept_plain sample_plain).1
  obtain ⟨s', r, e1, e2, e3, e4, e5, e6, e7⟩ := C54_import_document reach_d0 good_X0 hA sample rfl sample_plain (by rw [sample_depth]; omega) hroom.1 hroom.2
  refine ⟨s', r, e1, e5, ?_, ?_⟩
  · have := C54_import_print fmt0 (fun _ => []) reach_d0 good_X0 hA sample rfl (by rw [hk]; exact sample_fits) hroom.1 e1 (n := 7) (by rw [hk, sample_levels])
    rwa [hk] at this
  · obtain ⟨s'', f1, _, f2, _⟩ := C54_import_then_delete reach_d0 good_X0 hA sample rfl (by rw [hk, sample_levels]) hroom.1 e1
    exact ⟨s'', f1, f2⟩

/-- The printed text of the example. -/
example : sample.gens fmt0 = [.mapOpen, .str (asc "name"), .str longText, .str (asc "tags"), .arrOpen, .num (asc "7"), .num (asc "-3"), .mapOpen, .str (asc "x"),
    .str (asc "y"), .str (asc "deep"), .arrOpen, .arrOpen, .arrClose, .arrClose, .mapClose, .arrClose, .str [], .num (asc "0.500000"), .mapClose] := by
  simp only [sample, J.gens, JArr.gens, JObj.gens]; decide +kernel

/-! ## Counterexamples -/

/-- null, true and false disappear: `[null, 1, true]` is stored, with result 0, as `[1]`; printing it gives `[1]`. -/
theorem C54_null_counterexample : ∃ s' r, parseDocument (listAlloc (addrs 100)) X0 d0 (J.arr (.cons .null (.cons (.int 1#64) (.cons (.bool true) .nil)))).events =
      some (s', 0, some r) ∧ printDocument fmt0 (fun _ => []) s'.h 7 r = some [.arrOpen, .num (asc "1"), .arrClose] := by
  have h : ∃ y, parseDocument (listAlloc (addrs 100)) X0 d0 (J.arr (.cons .null (.cons (.int 1#64) (.cons (.bool true) .nil)))).events = some y ∧ y.2.1 = 0 ∧
      ∃ r, y.2.2 = some r ∧ printDocument fmt0 (fun _ => []) y.1.h 7 r = some [.arrOpen, .num (asc "1"), .arrClose] := by
    simp only [J.events, JArr.events]
    exact ⟨_, rfl, by decide +kernel, 8#64, by decide +kernel, by decide +kernel⟩
  obtain ⟨⟨s', c, d⟩, h1, h2, r, h3, h4⟩ := h
  cases h2; cases h3
  exact ⟨s', r, h1, h4⟩

/-- An integer that needs more than 32 bits is printed as another one: 4294967297 as 1. -/
theorem C54_int_counterexample : ∃ s' r, parseDocument (listAlloc (addrs 100)) X0 d0 (J.arr (.cons (.int 4294967297#64) .nil)).events = some (s', 0, some r) ∧
      Denotes s'.h r (J.arr (.cons (.int 4294967297#64) .nil)) ∧ printDocument fmt0 (fun _ => []) s'.h 7 r = some [.arrOpen, .num (asc "1"), .arrClose] := by
  have hlen : 7 * (J.arr (.cons (.int 4294967297#64) .nil)).events.length ≤ 100 := by simp [J.events, JArr.events]
  have hroom := listAlloc_room (n := 100) (by omega) hlen (J.arr (.cons (.int 4294967297#64) .nil)).events
  have hA : (listAlloc (addrs 100) : Alloc Unit).Ok := listAlloc_ok (addrs_ok (by omega))
  obtain ⟨s', r, e1, _, _, _, e5, _, _⟩ := C54_import_document reach_d0 good_X0 hA (J.arr (.cons (.int 4294967297#64) .nil)) rfl (by simp [J.plain, JArr.plain])
    (by simp [J.depth, JArr.depth]) hroom.1 hroom.2
  have h : ∃ y, parseDocument (listAlloc (addrs 100)) X0 d0 (J.arr (.cons (.int 4294967297#64) .nil)).events = some y ∧ 
      ∃ r, y.2.2 = some r ∧ printDocument fmt0 (fun _ => []) y.1.h 7 r = some [.arrOpen, .num (asc "1"), .arrClose] := by
    simp only [J.events, JArr.events]
    exact ⟨_, rfl, 8#64, by decide +kernel, by decide +kernel⟩
  obtain ⟨y, h1, r', h3, h4⟩ := h
  rw [e1] at h1; cases h1; cases h3
  exact ⟨s', r, e1, e5, h4⟩

/-- Seven levels: wg_check_json rejects the text, but the import accepts it; eight levels: both reject it. -/
def nest : Nat → J
  | 0 => .int 1#64
  | n + 1 => .arr (.cons (nest n) .nil)

theorem nest_depth : ∀ n, (nest n).depth = n
  | 0 => by simp [nest, J.depth]
  | n + 1 => by simp [nest, J.depth, JArr.depth, nest_depth n]

theorem nest_plain : ∀ n, (nest n).plain
  | 0 => by simp [nest, J.plain]
  | n + 1 => by simp [nest, J.plain, JArr.plain, nest_plain n]

theorem nest_events : ∀ n, (nest n).events.length = 2 * n + 1
  | 0 => by simp [nest, J.events]
  | n + 1 => by simp [nest, J.events, JArr.events, nest_events n]; omega

theorem C54_check_counterexample : checkJson (nest 7).events = -1 ∧ ∃ s' r, parseDocument (listAlloc (addrs 200)) X0 d0 (nest 7).events = some (s', 0, some r) ∧
    Denotes s'.h r (nest 7) := by
  constructor
  · rw [C54_check_json, if_neg (by rw [nest_depth]; omega)]
  · have hlen : 7 * (nest 7).events.length ≤ 200 := by rw [nest_events]; omega
    have hroom := listAlloc_room (n := 200) (by omega) hlen (nest 7).events
    obtain ⟨s', r, e1, _, _, _, e5, _, _⟩ := C54_import_document reach_d0 good_X0 (listAlloc_ok (addrs_ok (by omega))) (nest 7) rfl (nest_plain 7)
      (by rw [nest_depth]) hroom.1 hroom.2
    exact ⟨s', r, e1, e5⟩

/-- A text of eight levels is refused, and what was built of it stays in the database: here the record of the innermost array is left over. -/
theorem C54_leftover_counterexample : ∃ s', parseDocument (listAlloc (addrs 200)) X0 d0 (J.arr (.cons (.arr .nil) (.cons (nest 7) .nil))).events = some (s', -2, none) ∧
    (s'.h.recs 8#64).isSome = true := by
  have h : ∃ y, parseDocument (listAlloc (addrs 200)) X0 d0 (J.arr (.cons (.arr .nil) (.cons (nest 7) .nil))).events = some y ∧ y.2 = (-2, none) ∧
      (y.1.h.recs 8#64).isSome = true := by
    simp only [nest, J.events, JArr.events]
    exact ⟨_, rfl, by decide +kernel, by decide +kernel⟩
  obtain ⟨⟨s', _⟩, h1, h2, h3⟩ := h
  cases h2
  exact ⟨s', h1, h3⟩

/-- `{"a": {"a": … 1 … }}` -/
def nestObj : Nat → J
  | 0 => .int 1#64
  | n + 1 => .obj (.cons [97#8] (nestObj n) .nil)

/-- A document of four nested objects is imported, but takes eight levels of records and can not be deleted again: wg_delete_document fails. -/
theorem C54_delete_counterexample : ∃ s' r s'' code, parseDocument (listAlloc (addrs 250)) X0 d0 (nestObj 4).events = some (s', 0, some r) ∧ Denotes s'.h r (nestObj 4) ∧
    deleteDocument X0 s' r = some (s'', code) ∧ code ≠ 0 := by
  have hlen : 7 * (nestObj 4).events.length ≤ 250 := by simp [nestObj, J.events, JObj.events]
  have hroom := listAlloc_room (n := 250) (by omega) hlen (nestObj 4).events
  obtain ⟨s', r, e1, _, _, _, e5, _, _⟩ := C54_import_document reach_d0 good_X0 (listAlloc_ok (addrs_ok (by omega))) (nestObj 4) rfl
    (by simp only [nestObj, J.plain, JObj.plain]; decide) (by simp [nestObj, J.depth, JObj.depth]) hroom.1 hroom.2
  have h : ∃ y, parseDocument (listAlloc (addrs 250)) X0 d0 (nestObj 4).events = some y ∧ y.2.2 = some 64#64 ∧ 
      ∃ z, deleteDocument X0 y.1 64#64 = some z ∧ z.2 ≠ 0 := by
    simp only [nestObj, J.events, JObj.events]
    exact ⟨_, rfl, by decide +kernel, _, rfl, by decide +kernel⟩
  obtain ⟨y, h1, h3, z, h4, h5⟩ := h
  rw [e1] at h1; cases h1; cases h3
  exact ⟨s', _, z.1, z.2, e1, e5, h4, h5⟩

/-- Two members whose keys differ only after 79 bytes get the same key. -/
theorem C54_key_counterexample : (J.obj (.cons (List.replicate 79 97#8 ++ [98#8]) (.int 1#64) (.cons (List.replicate 79 97#8 ++ [99#8]) (.int 2#64) .nil))).kept =
    J.obj (.cons (List.replicate 79 97#8) (.int 1#64) (.cons (List.replicate 79 97#8) (.int 2#64) .nil)) := by
  have h1 : (upToNul (List.replicate 79 97#8 ++ [98#8])).take 79 = List.replicate 79 97#8 := by decide +kernel
  have h2 : (upToNul (List.replicate 79 97#8 ++ [99#8])).take 79 = List.replicate 79 97#8 := by decide +kernel
  simp only [J.kept, JObj.kept, J.dropped, Bool.false_eq_true, if_false, h1, h2]

/-- A file of 16384 bytes is silently not imported, one with a byte more is. -/
theorem C54_file_counterexample : fileText (List.replicate 16384 32#8) = none ∧ fileText (List.replicate 16385 32#8) = some (List.replicate 16385 32#8) := by
  constructor
  · rw [C54_file_partial, List.length_replicate, if_pos (by omega)]
  · rw [C54_file_partial, List.length_replicate, if_neg (by omega)]

end WG.Json
