import Verif.Json.Count
import Verif.Schema.Props
/-! # C54: JSON documents are imported and printed faithfully -/
namespace WG.Json
open WG.Recs

variable {C : Prop} {ι : Type} {X : Ix ι} {s : Db ι} {A : Alloc ι}

/-- `CellRoom A C X s N`: list cells can be allocated during the first `N` of the calls an import makes. (The result of this allocation is not checked, see C45.) -/
def CellRoom (A : Alloc ι) (C : Prop) (X : Ix ι) (s : Db ι) (N : Nat) : Prop := ∀ k s', Steps C X s k s' → k < N → A.cell s' ≠ none

/-- One of the first `N` of these calls finds that an allocation for the text fails. -/
def OutOfMemory (A : Alloc ι) (C : Prop) (X : Ix ι) (s : Db ι) (N : Nat) (evs : List Ev) : Prop := ∃ k s', Steps C X s k s' ∧ k < N ∧ A.Fails evs s'

/-- Import of a text: the result is 0 or −2; the database is a correct one, and what was in it before is untouched. With 0, the new record represents what is kept of
the text (null, true and false are left out, long keys are cut), it is marked as document if asked for, and the records under it form a tree of new records. It is −2
only if the text has more than seven levels or memory is exhausted. -/
theorem C54_import (hr : Reach C X s) (hg : X.Good) (hA : A.Ok) (j : J) (hj : j.isText = true) (hroom : CellRoom A C X s (7 * j.events.length)) (p d : Bool) :
    ∃ s' code doc, runParser A X s j.events p d = some (s', code, doc) ∧ Reach C X s' ∧ Untouched s.h s'.h ∧
      ((code = 0 ∧ j.depth ≤ 7 ∧ ∃ r, doc = some r ∧ s.h.recs r = none ∧ Denotes s'.h r j.kept ∧ TreeShaped (view s'.h) r ∧ (d = true → IsDocument s'.h r)) ∨
       (code = -2 ∧ (7 < j.depth ∨ OutOfMemory A C X s (7 * j.events.length) j.events))) := by
  have E : Env A C X s (7 * j.events.length) := ⟨hg, hA, hroom⟩
  unfold runParser
  rcases text_ok (p := p) (d := d) E j hj (Nat.le_refl _) hr with ⟨c', e1, e2, ⟨k', e3⟩, e4⟩ | ⟨c', k', r, rc, e1, e2, e3, e4, e5, e6, e7, e8, e9⟩
  · rw [e1]
    exact ⟨_, _, _, rfl, e3.steps.reach hr, e2.untouched (reach_inv hr), Or.inr ⟨rfl, e4.symm⟩⟩
  · rw [e1]
    refine ⟨_, _, _, rfl, e4.steps.reach hr, e3.untouched (reach_inv hr), Or.inl ⟨rfl, e2, r, e5, e4.fresh r (by simp) e6, e9, e4.tree e6, ?_⟩⟩
    rintro rfl
    exact ⟨rc, e7, e8⟩

/-- A text of at most seven levels without null, true and false, zero bytes and long keys, for which there is enough memory, is imported completely. -/
theorem C54_import_document (hr : Reach C X s) (hg : X.Good) (hA : A.Ok) (j : J) (hj : j.isText = true) (hp : j.plain) (hd : j.depth ≤ 7)
    (hroom : CellRoom A C X s (7 * j.events.length)) (hmem : ¬ OutOfMemory A C X s (7 * j.events.length) j.events) :
    ∃ s' r, parseDocument A X s j.events = some (s', 0, some r) ∧ Reach C X s' ∧ Untouched s.h s'.h ∧ s.h.recs r = none ∧ Denotes s'.h r j ∧
      TreeShaped (view s'.h) r ∧ IsDocument s'.h r := by
  obtain ⟨s', code, doc, e1, e2, e3, e4⟩ := C54_import (p := false) (d := true) hr hg hA j hj hroom
  rcases e4 with ⟨rfl, _, r, rfl, f1, f2, f3, f4⟩ | ⟨_, f | f⟩
  · rw [(kept_plain hp).1] at f2
    exact ⟨s', r, e1, e2, e3, f1, f2, f3, f4 rfl⟩
  · omega
  · exact absurd f hmem

/-- A text that turns out to be broken after some calls: the database is still a correct one, and what was in it before is untouched. -/
theorem C54_broken_text (hr : Reach C X s) (hg : X.Good) (hA : A.Ok) (j : J) (hj : j.isText = true) (hroom : CellRoom A C X s (7 * j.events.length)) (p d : Bool)
    {evs : List Ev} (hpre : evs <+: j.events) :
    ∃ s' code doc, runParser A X s evs p d = some (s', code, doc) ∧ Reach C X s' ∧ Untouched s.h s'.h := by
  obtain ⟨rest, hev⟩ := hpre
  have E : Env A C X s (7 * j.events.length) := ⟨hg, hA, hroom⟩
  have hdef : ∃ y, feed A X j.events ⟨s, [], none, p, d⟩ = some y := by
    obtain ⟨_, _, _, e, _⟩ := C54_import hr hg hA j hj hroom p d
    unfold runParser at e
    cases hf : feed A X j.events ⟨s, [], none, p, d⟩ with
    | none => rw [hf] at e; cases e
    | some y => exact ⟨y, rfl⟩
  rw [← hev, feed_append] at hdef
  cases hf : feed A X evs ⟨s, [], none, p, d⟩ with
  | none => rw [hf] at hdef; obtain ⟨_, e⟩ := hdef; cases e
  | some y =>
    obtain ⟨c', b⟩ := y
    obtain ⟨g1, k', g2⟩ := feed_safe E evs (k := 0) ⟨LInv.start hr, by simp⟩ (by rw [← hev]; simp [loose]) hf
    refine ⟨c'.db, _, _, by rw [runParser, hf]; rfl, g2.steps.reach hr, g1.untouched (reach_inv hr)⟩

/-- A document of at most seven levels of records can be deleted again: its records are gone, all others are as they were before the import. -/
theorem C54_import_then_delete (hr : Reach C X s) (hg : X.Good) (hA : A.Ok) (j : J) (hj : j.isText = true) (hlev : j.kept.levels ≤ 7)
    (hroom : CellRoom A C X s (7 * j.events.length)) {s' : Db ι} {r : Word} (he : parseDocument A X s j.events = some (s', 0, some r)) :
    ∃ s'', deleteDocument X s' r = some (s'', 0) ∧ Reach C X s'' ∧ view s''.h r = none ∧ ∀ p, s.h.recs p ≠ none → view s''.h p = view s.h p := by
  have E : Env A C X s (7 * j.events.length) := ⟨hg, hA, hroom⟩
  rcases text_ok (p := false) (d := true) E j hj (Nat.le_refl _) hr with ⟨c', e1, _⟩ | ⟨c', k', r', rc, e1, e2, e3, e4, e5, e6, e7, e8, e9⟩
  · rw [parseDocument, runParser, e1] at he
    simp at he
  · rw [parseDocument, runParser, e1] at he
    simp only [Option.map_some, if_true, Option.some.injEq, Prod.mk.injEq, true_and] at he
    obtain ⟨rfl, h2⟩ := he
    rw [h2] at e5; cases e5
    obtain ⟨s'', f1, f2, f3, f4, _⟩ := C47_delete_document X hg (e4.steps.reach hr) ⟨rc, e7, e8⟩ (e4.tree e6) (fun x n hl => by
      have := levels_ok e9 e6 hl; omega)
    refine ⟨s'', f1, f2, f3 r ⟨0, .here⟩, fun p hp => ?_⟩
    have hnb : ¬ Below (view c'.db.h) r p := by
      rintro ⟨n, hl⟩
      have hnew : ∀ n x, Links (view c'.db.h) r x n → s.h.recs x = none := by
        intro n x hl
        induction hl with
        | here => exact e4.fresh r (by simp) e6
        | @step y x n fs h1 h2 h3 h4 ih =>
          simp only [view, Option.map_eq_some_iff] at h2
          obtain ⟨rc, e, rfl⟩ := h2
          exact e4.closed y rc x e ih h3 h4
      exact hp (hnew n p hl)
    rw [f4 p hnb]
    cases hs : s.h.recs p with
    | none => exact absurd hs hp
    | some rp =>
      obtain ⟨b, e⟩ := e3.recs p rp hs
      simp [view, hs, e]

/-- Printing: for a document that represents a text with 32 bit integers and doubles of at most 77 characters exactly the calls of the generator for the text are made. -/
theorem C54_print (fmt other : Word → List Byte) {h : Heap} {r : Word} (hd : IsDocument h r) {j : J} (hj : Denotes h r j) (hrec : isRecVal r = true) (hf : j.fits fmt)
    {n : Nat} (hn : j.levels ≤ n) : printDocument fmt other h n r = some (j.gens fmt) := by
  obtain ⟨rc, e1, e2⟩ := hd
  rw [printDocument, e1]
  dsimp only
  rw [if_pos e2, printRec_ok fmt other hj hrec hf n hn]
  rfl

/-- Import and printing together. -/
theorem C54_import_print (fmt other : Word → List Byte) (hr : Reach C X s) (hg : X.Good) (hA : A.Ok) (j : J) (hj : j.isText = true) (hf : j.kept.fits fmt)
    (hroom : CellRoom A C X s (7 * j.events.length)) {s' : Db ι} {r : Word} (he : parseDocument A X s j.events = some (s', 0, some r)) {n : Nat} (hn : j.kept.levels ≤ n) :
    printDocument fmt other s'.h n r = some (j.kept.gens fmt) := by
  obtain ⟨s1, code, doc, e1, e2, e3, e4⟩ := C54_import (p := false) (d := true) hr hg hA j hj hroom
  rw [parseDocument, e1] at he
  simp only [Option.some.injEq, Prod.mk.injEq] at he
  obtain ⟨rfl, rfl, rfl⟩ := he
  rcases e4 with ⟨_, _, r', e, f1, f2, f3, f4⟩ | ⟨e, _⟩
  · cases e
    refine C54_print fmt other (f4 rfl) f2 ?_ hf hn
    obtain ⟨rc, g, _⟩ := f4 rfl
    exact (reach_inv e2).recs r rc g
  · cases e

/-! ## wg_check_json -/

mutual
theorem check_val : ∀ (v : J) (d : Int) (l : List Ev), 0 ≤ d → d < 7 → checkEvents (v.events ++ l) d = if d + v.depth < 7 then checkEvents l d else (false, 7)
  | .null, d, l, h0, h7 => by simp [J.events, J.depth, checkEvents, h7]
  | .bool _, d, l, h0, h7 => by simp [J.events, J.depth, checkEvents, h7]
  | .int _, d, l, h0, h7 => by simp [J.events, J.depth, checkEvents, h7]
  | .dbl _, d, l, h0, h7 => by simp [J.events, J.depth, checkEvents, h7]
  | .str _, d, l, h0, h7 => by simp [J.events, J.depth, checkEvents, h7]
  | .arr a, d, l, h0, h7 => by
    simp only [J.events, List.cons_append, List.append_assoc, checkEvents, if_neg (show ¬ d = -1 by omega), maxDepth]
    have hd : (J.arr a).depth = a.depth + 1 := by rw [J.depth]
    by_cases h : ((7 : Nat) : Int) ≤ d + 1
    · rw [if_pos h, show d + 1 = 7 by omega]; split_ifs <;> first | rfl | omega
    · rw [if_neg h, check_arr a (d + 1) _ (by omega) (by omega)]
      by_cases h2 : d + 1 + (a.depth : Int) < 7
      · rw [if_pos h2]
        simp only [List.nil_append, checkEvents]
        rw [show d + 1 - 1 = d by omega]
        split_ifs <;> first | rfl | omega
      · rw [if_neg h2]; split_ifs <;> first | rfl | omega
  | .obj a, d, l, h0, h7 => by
    simp only [J.events, List.cons_append, List.append_assoc, checkEvents, if_neg (show ¬ d = -1 by omega), maxDepth]
    have hd : (J.obj a).depth = a.depth + 1 := by rw [J.depth]
    by_cases h : ((7 : Nat) : Int) ≤ d + 1
    · rw [if_pos h, show d + 1 = 7 by omega]; split_ifs <;> first | rfl | omega
    · rw [if_neg h, check_obj a (d + 1) _ (by omega) (by omega)]
      by_cases h2 : d + 1 + (a.depth : Int) < 7
      · rw [if_pos h2]
        simp only [List.nil_append, checkEvents]
        rw [show d + 1 - 1 = d by omega]
        split_ifs <;> first | rfl | omega
      · rw [if_neg h2]; split_ifs <;> first | rfl | omega
theorem check_arr : ∀ (a : JArr) (d : Int) (l : List Ev), 0 ≤ d → d < 7 → checkEvents (a.events ++ l) d = if d + a.depth < 7 then checkEvents l d else (false, 7)
  | .nil, d, l, h0, h7 => by simp [JArr.events, JArr.depth, h7]
  | .cons v a, d, l, h0, h7 => by
    have hd : (JArr.cons v a).depth = max v.depth a.depth := by rw [JArr.depth]
    simp only [JArr.events, List.append_assoc]
    rw [check_val v d _ h0 h7, check_arr a d _ h0 h7]
    by_cases h1 : d + (v.depth : Int) < 7
    · rw [if_pos h1]
      by_cases h2 : d + (a.depth : Int) < 7
      · rw [if_pos h2]; split_ifs <;> first | rfl | omega
      · rw [if_neg h2]; split_ifs <;> first | rfl | omega
    · rw [if_neg h1]; split_ifs <;> first | rfl | omega
theorem check_obj : ∀ (a : JObj) (d : Int) (l : List Ev), 0 ≤ d → d < 7 → checkEvents (a.events ++ l) d = if d + a.depth < 7 then checkEvents l d else (false, 7)
  | .nil, d, l, h0, h7 => by simp [JObj.events, JObj.depth, h7]
  | .cons k v a, d, l, h0, h7 => by
    simp only [JObj.events, List.cons_append, List.append_assoc, checkEvents]
    have hd : (JObj.cons k v a).depth = max v.depth a.depth := by rw [JObj.depth]
    rw [check_val v d _ h0 h7, check_obj a d _ h0 h7]
    by_cases h1 : d + (v.depth : Int) < 7
    · rw [if_pos h1]
      by_cases h2 : d + (a.depth : Int) < 7
      · rw [if_pos h2]; split_ifs <;> first | rfl | omega
      · rw [if_neg h2]; split_ifs <;> first | rfl | omega
    · rw [if_neg h1]; split_ifs <;> first | rfl | omega
end

/-- wg_check_json accepts a text exactly if it is an array or object of at most six levels. -/
theorem C54_check_json (j : J) : checkJson j.events = if j.isText = true ∧ j.depth ≤ 6 then 0 else -1 := by
  have key : ∀ j : J, j.isText = true → checkEvents j.events (-1) = checkEvents j.events 0 := by
    intro j hj
    cases j <;> first | (cases hj; done) | (simp [J.events, checkEvents]; done)
  unfold checkJson
  by_cases hj : j.isText = true
  · have h := check_val j 0 [] (by omega) (by omega)
    rw [List.append_nil] at h
    simp only [key j hj, h]
    by_cases h2 : (0 : Int) + j.depth < 7
    · rw [if_pos h2, if_pos (show j.isText = true ∧ j.depth ≤ 6 from ⟨hj, by omega⟩)]; simp [checkEvents]
    · rw [if_neg h2, if_neg (show ¬ (j.isText = true ∧ j.depth ≤ 6) by omega)]; simp
  · rw [if_neg (show ¬ (j.isText = true ∧ j.depth ≤ 6) from fun h => hj h.1)]
    cases j <;> first | exact absurd rfl hj | simp [J.events, checkEvents]

/-! ## Files -/

theorem readLoop_ok : ∀ (n : Nat) (rest buf : List Byte), rest.length / 16384 + 2 ≤ n →
    readLoop n rest false buf = if rest.length % 16384 = 0 then none else some (buf ++ rest)
  | 0, _, _, h => by omega
  | n + 1, rest, buf, h => by
    rw [readLoop, if_neg (by simp)]
    simp only [List.length_take]
    by_cases h0 : rest.length = 0
    · rw [if_pos (by omega), if_pos (by omega)]
    · rw [if_neg (by omega)]
      by_cases h1 : rest.length < 16384
      · rw [show decide (min 16384 rest.length < 16384) = true by simp; omega]
        obtain ⟨m, rfl⟩ : ∃ m, n = m + 1 := ⟨n - 1, by omega⟩
        rw [readLoop, if_pos rfl, if_neg (by omega), List.take_of_length_le (by omega)]
      · rw [show decide (min 16384 rest.length < 16384) = false by simp; omega, readLoop_ok n _ _ (by rw [List.length_drop]; omega), List.length_drop,
          show (rest.length - 16384) % 16384 = rest.length % 16384 by omega, List.append_assoc, List.take_append_drop]

/-- wg_parse_json_file passes the whole file on, except that a file whose length is a multiple of 16384 is not looked at at all (and the result is 0). -/
theorem C54_file_partial (data : List Byte) : fileText data = if data.length % 16384 = 0 then none else some data := by
  rw [fileText, readLoop_ok _ _ _ (Nat.le_refl _)]; simp

end WG.Json
