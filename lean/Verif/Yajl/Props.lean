import Verif.Yajl.Glue
/-!
# C55, C56: JSON texts

`strtod` and `fmt` (`%f`) are the functions of the C library, about which nothing is assumed. `A`, `X`, `Reach`, `CellRoom`, `OutOfMemory` are as in C54.
-/
namespace WG.Yajl
open WG.Json
open WG.Recs

variable {strtod : List Byte → Option Word} {ι σ : Type} {A : Alloc ι} {X : Ix ι} {C : Prop} {s : Db ι}

/-- **C55.** A text of the grammar is read as the value it stands for. -/
theorem C55_reads {txt : List Byte} {j : J} (h : Text strtod txt j) (p d : Bool) : parseText strtod A X s txt p d = runParser A X s j.events p d := by
  obtain ⟨r, e1, e2⟩ := accept_complete h
  rw [parseText_eq e1, runParser]
  simp only [e2, Bool.and_true]

/-- **C55.** With C54: the import of a text of the grammar whose value can be represented succeeds, changes nothing that was there, and the new document is that value. -/
theorem C55_import_document {txt : List Byte} {j : J} (h : Text strtod txt j) (hr : Reach C X s) (hg : X.Good) (hA : A.Ok) (hj : j.isText = true) (hp : j.plain) (hd : j.depth ≤ 7)
    (hroom : CellRoom A C X s (7 * j.events.length)) (hmem : ¬ OutOfMemory A C X s (7 * j.events.length) j.events) :
    ∃ s' r, parseText strtod A X s txt false true = some (s', 0, some r) ∧ Reach C X s' ∧ Untouched s.h s'.h ∧ s.h.recs r = none ∧ Denotes s'.h r j ∧
      TreeShaped (view s'.h) r ∧ IsDocument s'.h r := by
  rw [C55_reads h]
  exact C54_import_document hr hg hA j hj hp hd hroom hmem

/-- **C55.** Texts the import accepts are texts of the grammar, up to an unterminated comment or string after the value. -/
theorem C55_only_partial {txt : List Byte} (hp : Paired txt) {p d : Bool} {s' : Db ι} {doc : Option Word} (h : parseText strtod A X s txt p d = some (s', 0, doc)) :
    ∃ j, (Text strtod txt j ∨ Cut strtod txt j) ∧ runParser A X s j.events p d = some (s', 0, doc) := by
  obtain ⟨evs, r, e1, _⟩ := run_prefix (strtod := strtod) hp
  rw [parseText_eq e1] at h
  cases hf : feed A X evs ⟨s, [], none, p, d⟩ with
  | none => rw [hf] at h; cases h
  | some y =>
    rw [hf, Option.map_some, Option.some.injEq, Prod.mk.injEq, Prod.mk.injEq] at h
    obtain ⟨h1, h2, h3⟩ := h
    have hb : (y.2 && r.good) = true := by
      by_contra hb
      rw [if_neg hb] at h2
      exact absurd h2 (by decide)
    rw [Bool.and_eq_true] at hb
    obtain ⟨j, rfl, hj⟩ := accept_sound hp e1 hb.2
    exact ⟨j, hj, by rw [runParser, hf, Option.map_some, hb.1, h1, h3]; rfl⟩

/-- **C55.** Any bytes whatever (with the surrogates in pairs): the import is defined, its result is 0 or -2, the database stays correct and what was there is untouched. -/
theorem C55_safe_partial {txt : List Byte} (hp : Paired txt) (hr : Reach C X s) (hg : X.Good) (hA : A.Ok) (hroom : CellRoom A C X s (7 * (2 * txt.length + 4))) (p d : Bool) :
    ∃ s' code doc, parseText strtod A X s txt p d = some (s', code, doc) ∧ Reach C X s' ∧ Untouched s.h s'.h ∧ (code = 0 ∨ code = -2) := by
  obtain ⟨evs, r, e1, j, f1, f2, f3⟩ := run_prefix (strtod := strtod) hp
  obtain ⟨y, g1, g2, g3⟩ := feed_any hr hg hA p d f1 f3 (show 7 * j.events.length ≤ 7 * (2 * txt.length + 4) by omega) (by omega) hroom
  rw [parseText_eq e1, g1]
  refine ⟨_, _, _, rfl, g2, g3, ?_⟩
  split_ifs
  · exact Or.inl rfl
  · exact Or.inr rfl

/-- **C55.** wg_check_json on a text of the grammar: 0 if it is an array or object of at most six levels, else -1. -/
theorem C55_check {txt : List Byte} {j : J} (h : Text strtod txt j) : checkText strtod txt = some (if j.isText = true ∧ j.depth ≤ 6 then 0 else -1) := by
  obtain ⟨r, e1, e2⟩ := accept_complete h
  rw [checkText_eq e1, e2, if_pos rfl, C54_check_json]

/-- **C55.** wg_check_json gives 0 or -1; 0 only for texts of the grammar, up to an unterminated comment or string at the end. -/
theorem C55_check_only_partial {txt : List Byte} (hp : Paired txt) :
    checkText strtod txt = some (-1) ∨ (checkText strtod txt = some 0 ∧ ∃ j, (Text strtod txt j ∨ Cut strtod txt j) ∧ j.isText = true ∧ j.depth ≤ 6) := by
  obtain ⟨evs, r, e1, _⟩ := run_prefix (strtod := strtod) hp
  rw [checkText_eq e1]
  by_cases hr : r.good = true
  · obtain ⟨j, rfl, hj⟩ := accept_sound hp e1 hr
    rw [if_pos hr, C54_check_json]
    split_ifs with h
    · exact Or.inr ⟨rfl, j, hj, h⟩
    · exact Or.inl rfl
  · rw [if_neg hr]; exact Or.inl rfl

/-- **C55.** However the text is cut into blocks, and whatever the callbacks are, the parser makes the same calls and ends the same way. -/
theorem C55_blocks_partial (cb : σ → Ev → Option (σ × Bool)) (c : σ) {bs bs' : List (List Byte)} (hb : ∀ b ∈ bs, b ≠ []) (hb' : ∀ b ∈ bs', b ≠ [])
    (he : bs.flatten = bs'.flatten) (hp : Paired bs.flatten) :
    (parseBlocks strtod cb bs (yajlAlloc c)).map (fun y => (y.1.ctx, y.2)) = (parseBlocks strtod cb bs' (yajlAlloc c)).map (fun y => (y.1.ctx, y.2)) := by
  obtain ⟨evs, r, e1, _⟩ := run_prefix (strtod := strtod) hp
  rw [parse_eq hb c e1, parse_eq hb' c (by rw [← he]; exact e1)]

/-- **C55.** The import of a file whose length is not a multiple of 16384 is the import of its contents up to the first 0 byte if wg_check_json accepts the contents, and else
fails with -1 and changes nothing. -/
theorem C55_file_partial {data : List Byte} (hp : Paired data) (hl : data.length % 16384 ≠ 0) : parseFile strtod A X s data =
    if checkText strtod data = some 0 then (parseText strtod A X s (upToNul data) false true).map fun y => (y.1, y.2.1) else some (s, -1) := by
  have h := fileLoop_ok (strtod := strtod) A X s _ data [] (yajlAlloc (-1)) (Nat.le_refl _) hl
  rw [List.nil_append] at h
  have hp2 : parseFile strtod A X s data = _ := h
  rw [hp2, checkText]
  have hdef : checkText strtod data ≠ none := by
    rcases C55_check_only_partial (strtod := strtod) hp with e | ⟨e, _⟩ <;> rw [e] <;> simp
  rw [checkText] at hdef
  cases hb : parseBlocks strtod checkCb (blocks data.length data) (yajlAlloc (-1)) with
  | none => rw [hb] at hdef; exact absurd rfl hdef
  | some y =>
    obtain ⟨h', st⟩ := y
    simp only [Option.map_some]
    by_cases h1 : st = .ok
    · by_cases h2 : h'.ctx = -1
      · simp [h1, h2]
      · simp [h1, h2]; rfl
    · simp [h1]

/-- **C55.** A file whose length is a multiple of 16384 is never imported. -/
theorem C55_file_full {data : List Byte} (hl : data.length % 16384 = 0) : parseFile strtod A X s data = none ∨ parseFile strtod A X s data = some (s, 0) ∨
    parseFile strtod A X s data = some (s, -1) := by
  unfold parseFile
  rcases fileLoop_full (strtod := strtod) _ data [] (yajlAlloc (-1)) (Nat.le_refl _) hl with e | e | e <;> rw [e] <;> simp

/-- The import of a file never touches what was there. -/
theorem C55_file_safe_partial {data : List Byte} (hp : Paired data) (hp' : Paired (upToNul data)) (hr : Reach C X s) (hg : X.Good) (hA : A.Ok)
    (hroom : CellRoom A C X s (7 * (2 * data.length + 4))) (hl : data.length % 16384 ≠ 0) :
    ∃ s' code, parseFile strtod A X s data = some (s', code) ∧ Reach C X s' ∧ Untouched s.h s'.h ∧ (code = 0 ∨ code = -1 ∨ code = -2) := by
  rw [C55_file_partial hp hl]
  split_ifs with h
  · have hlen : (upToNul data).length ≤ data.length := (List.takeWhile_prefix _).length_le
    obtain ⟨s', code, doc, e1, e2, e3, e4⟩ := C55_safe_partial (strtod := strtod) hp' hr hg hA (CellRoom.mono hroom (by omega)) false true
    rw [e1]
    exact ⟨s', code, rfl, e2, e3, by rcases e4 with e | e <;> simp [e]⟩
  · exact ⟨s, -1, rfl, hr, (Ext.refl _).untouched (reach_inv hr), Or.inr (Or.inl rfl)⟩

/-! ## Printing -/

variable {fmt : Word → List Byte} {f : Word → Word}

mutual
theorem withDbl_plain : ∀ j : J, j.plain → (withDbl f j).plain
  | .null, h => h
  | .bool _, h => h
  | .int _, h => h
  | .dbl _, h => h
  | .str _, h => h
  | .arr a, h => withDbl_plain_arr a h
  | .obj m, h => withDbl_plain_obj m h
theorem withDbl_plain_arr : ∀ a : JArr, a.plain → (withDblArr f a).plain
  | .nil, h => h
  | .cons v a, h => ⟨withDbl_plain v h.1, withDbl_plain_arr a h.2⟩
theorem withDbl_plain_obj : ∀ m : JObj, m.plain → (withDblObj f m).plain
  | .nil, h => h
  | .cons _ v m, h => ⟨h.1, h.2.1, withDbl_plain v h.2.2.1, withDbl_plain_obj m h.2.2.2⟩
end

mutual
theorem withDbl_depth : ∀ j : J, (withDbl f j).depth = j.depth
  | .null => rfl
  | .bool _ => rfl
  | .int _ => rfl
  | .dbl _ => by simp [withDbl, J.depth]
  | .str _ => rfl
  | .arr a => by rw [withDbl, J.depth, J.depth, withDbl_depth_arr a]
  | .obj m => by rw [withDbl, J.depth, J.depth, withDbl_depth_obj m]
theorem withDbl_depth_arr : ∀ a : JArr, (withDblArr f a).depth = a.depth
  | .nil => rfl
  | .cons v a => by rw [withDblArr, JArr.depth, JArr.depth, withDbl_depth v, withDbl_depth_arr a]
theorem withDbl_depth_obj : ∀ m : JObj, (withDblObj f m).depth = m.depth
  | .nil => rfl
  | .cons _ v m => by rw [withDblObj, JObj.depth, JObj.depth, withDbl_depth v, withDbl_depth_obj m]
end

mutual
theorem withDbl_len : ∀ j : J, (withDbl f j).events.length = j.events.length
  | .null => rfl
  | .bool _ => rfl
  | .int _ => rfl
  | .dbl _ => by simp [withDbl, J.events]
  | .str _ => rfl
  | .arr a => by simp [withDbl, J.events, withDbl_len_arr a]
  | .obj m => by simp [withDbl, J.events, withDbl_len_obj m]
theorem withDbl_len_arr : ∀ a : JArr, (withDblArr f a).events.length = a.events.length
  | .nil => rfl
  | .cons v a => by simp [withDblArr, JArr.events, withDbl_len v, withDbl_len_arr a]
theorem withDbl_len_obj : ∀ m : JObj, (withDblObj f m).events.length = m.events.length
  | .nil => rfl
  | .cons _ v m => by simp [withDblObj, JObj.events, withDbl_len v, withDbl_len_obj m]
end

/-- **C56.** The text printed for a document is a JSON text, and it stands for the document's value, up to the doubles as printed. -/
theorem C56_print_parse (other : Word → List Byte) {h : Heap} {r : Word} (hd : IsDocument h r) {j : J} (hj : Denotes h r j) (hrec : isRecVal r = true) (hf : j.fits fmt)
    {n : Nat} (hn : j.levels ≤ n) (hp : Printable strtod fmt f j) (hdep : j.depth < 128) :
    ∃ txt, printText fmt other h n r = some txt ∧ Text strtod txt (withDbl f j) := by
  obtain ⟨txt, e1, e2⟩ := gen_text j hp hdep
  refine ⟨txt, ?_, e2⟩
  rw [printText, C54_print fmt other hd hj hrec hf hn]
  dsimp only
  rw [e1]; rfl

/-- **C56.** A document printed from one database and read into another is the same document there, up to the doubles as printed. -/
theorem C56_round_trip (other : Word → List Byte) {h : Heap} {r : Word} (hdoc : IsDocument h r) {j : J} (hden : Denotes h r j) (hrec : isRecVal r = true) (hf : j.fits fmt)
    {n : Nat} (hn : j.levels ≤ n) (hp : Printable strtod fmt f j) (hdep : j.depth ≤ 7) (hj : j.isText = true) (hpl : j.plain)
    (hr : Reach C X s) (hg : X.Good) (hA : A.Ok) (hroom : CellRoom A C X s (7 * j.events.length))
    (hmem : ¬ OutOfMemory A C X s (7 * j.events.length) (withDbl f j).events) :
    ∃ txt s' r', printText fmt other h n r = some txt ∧ parseText strtod A X s txt false true = some (s', 0, some r') ∧ Reach C X s' ∧ Untouched s.h s'.h ∧
      Denotes s'.h r' (withDbl f j) ∧ IsDocument s'.h r' := by
  obtain ⟨txt, e1, e2⟩ := C56_print_parse other hdoc hden hrec hf hn hp (by omega)
  obtain ⟨s', r', g1, g2, g3, _, g5, _, g7⟩ := C55_import_document e2 hr hg hA (by cases j <;> first | rfl | cases hj) (withDbl_plain j hpl)
    (by rw [withDbl_depth]; exact hdep) (by rw [withDbl_len]; exact hroom) (by rw [withDbl_len]; exact hmem)
  exact ⟨txt, s', r', e1, g1, g2, g3, g5, g7⟩

end WG.Yajl
