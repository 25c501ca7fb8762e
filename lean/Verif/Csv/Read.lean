import Verif.Csv.Parse
/-! # Lemmas about reading a CSV file -/
namespace WG.Csv
open Spec

variable {σ : Type} {E : Env σ} {atof : Str → Word × Bool}

/-- Between fields. -/
def at0 (db : σ) (row : List Word) (err : Int) : St σ := ⟨db, row, false, false, false, false, [], false, err⟩

/-- At the end of a line. -/
def finish (E : Env σ) (atof : Str → Word × Bool) (s : St σ) (rest : Str) : Option (St σ) :=
  match commitRecord E s with
  | (s, true) => some s
  | (s, false) => readCsv E atof rest s

/-- The text of a value is complete. -/
theorem commitField_ok {s : St σ} (he : s.errno = false) (hl : s.buf.length ≤ 4095) (hz : ∀ c ∈ s.buf, c ≠ 0#8) :
    commitField E atof s = some { s with db := (E.encode s.db (parse atof s.buf)).1, row := s.row ++ [(E.encode s.db (parse atof s.buf)).2.getD 0#64], buf := [], errno := false } := by
  have e : s.buf.takeWhile (· ≠ 0#8) = s.buf := by
    have := List.takeWhile_append_of_pos (p := fun c => decide (c ≠ 0#8)) (l₁ := s.buf) (l₂ := []) (by simpa using hz)
    simpa using this
  unfold commitField
  rw [if_pos (by omega), he, e, parseInput_clear]

theorem uq_run (db : σ) (row : List Word) (eat : Bool) (err : Int) (s b rest : Str) (hl : b.length + s.length ≤ 4095) (h : ∀ c ∈ s, c ≠ 44#8 ∧ c ≠ 13#8 ∧ c ≠ 10#8) :
    readCsv E atof (s ++ rest) ⟨db, row, false, true, false, eat, b, false, err⟩ = readCsv E atof rest ⟨db, row, false, true, false, eat, b ++ s, false, err⟩ := by
  induction s generalizing b with
  | nil => simp
  | cons c s ih =>
    obtain ⟨h1, h2, h3⟩ := h c (by simp)
    rw [List.length_cons] at hl
    rw [List.cons_append, readCsv.eq_def]
    simp only [Bool.false_eq_true, if_false, if_true, if_neg h1, if_neg h2, if_neg h3]
    rw [push, if_pos (by simp only []; omega)]
    rw [ih (b ++ [c]) (by rw [List.length_append]; simp; omega) (fun d hd => h d (by simp [hd]))]
    simp

theorem q_run (db : σ) (row : List Word) (err : Int) (s b rest : Str) (hl : b.length + s.length ≤ 4095) :
    readCsv E atof (s.flatMap (fun c => if c = 34#8 then [34#8, 34#8] else [c]) ++ rest) ⟨db, row, true, false, false, false, b, false, err⟩ =
      readCsv E atof rest ⟨db, row, true, false, false, false, b ++ s, false, err⟩ := by
  induction s generalizing b with
  | nil => simp
  | cons c s ih =>
    rw [List.length_cons] at hl
    have := ih (b ++ [c]) (by rw [List.length_append]; simp; omega)
    rw [List.append_assoc] at this
    rw [List.flatMap_cons, List.append_assoc]
    by_cases hc : c = 34#8
    · subst hc
      rw [if_pos rfl, List.cons_append, List.cons_append, List.nil_append, readCsv]
      simp only [if_true, true_and, ne_eq, not_true_eq_false, if_false]
      rw [readCsv.eq_def]
      simp only [if_true, Bool.true_eq_false, false_and, if_false, push]
      rw [if_pos (by omega)]
      exact this
    · rw [if_neg hc, List.cons_append, List.nil_append, readCsv.eq_def]
      simp only [if_true, hc, and_false, if_false, push]
      rw [if_pos (by omega)]
      exact this

/-- A quoted field up to its last quote. -/
theorem quoted_run (db : σ) (row : List Word) (err : Int) (s rest : Str) (n : Byte) (h : (Field.quoted s).Ok) (hn : n = 44#8 ∨ n = 13#8 ∨ n = 10#8) :
    readCsv E atof (quote s ++ n :: rest) (at0 db row err) =
      readCsv E atof (n :: rest) ⟨(E.encode db (parse atof s)).1, row ++ [(E.encode db (parse atof s)).2.getD 0#64], false, false, false, true, [], false, err⟩ := by
  have hn34 : n ≠ 34#8 := by rcases hn with rfl | rfl | rfl <;> decide
  have hn255 : n ≠ 255#8 := by rcases hn with rfl | rfl | rfl <;> decide
  rw [quote, List.append_assoc, List.append_assoc, List.cons_append, List.nil_append, readCsv.eq_def, at0]
  simp only [Bool.false_eq_true, if_false, if_true, show ¬(34#8 : Byte) = 44#8 by decide, show ¬(34#8 : Byte) = 13#8 by decide, show ¬(34#8 : Byte) = 10#8 by decide]
  rw [q_run db row err s [] _ (by simpa using h.1), List.nil_append, List.cons_append, List.nil_append, readCsv]
  simp only [if_true, true_and, ne_eq, hn34, not_false_eq_true, hn255, if_false]
  rw [commitField_ok rfl h.1 h.2]

/-- A field and the comma after it. -/
theorem field_comma (db : σ) (row : List Word) (err : Int) (f : Field) (rest : Str) (h : f.Ok) :
    readCsv E atof (f.text ++ 44#8 :: rest) (at0 db row err) =
      readCsv E atof rest (at0 (E.encode db (parse atof f.content)).1 (row ++ [(E.encode db (parse atof f.content)).2.getD 0#64]) err) := by
  cases f with
  | quoted s =>
    rw [Field.text, quoted_run db row err s rest _ h (Or.inl rfl), readCsv.eq_def]
    simp only [Bool.false_eq_true, if_false, if_true]
    rfl
  | plain s =>
    obtain ⟨h1, h2, h3⟩ := h
    cases s with
    | nil =>
      rw [Field.text, List.nil_append, readCsv.eq_def, at0]
      simp only [Bool.false_eq_true, if_false, if_true]
      rw [commitField_ok rfl (by simp) (by simp)]
      rfl
    | cons c s =>
      obtain ⟨_, c1, c2, c3⟩ := h2 c (by simp)
      have c4 : c ≠ 34#8 := by simpa using h3
      rw [Field.text, List.cons_append, readCsv.eq_def, at0]
      simp only [Bool.false_eq_true, if_false, if_neg c1, if_neg c2, if_neg c3, if_neg c4, List.length_nil, show 0 < 4096 by omega, if_true, List.nil_append]
      rw [uq_run db row false err s [c] _ (by simp at h1 ⊢; omega) (fun d hd => (h2 d (by simp [hd])).2), readCsv.eq_def]
      simp only [Bool.false_eq_true, if_false, if_true]
      rw [commitField_ok rfl (by simpa using h1) (fun d hd => (h2 d (by simpa using hd)).1)]
      rfl

/-- CR is skipped between fields and in fields without quotes. -/
theorem skip_cr (s : St σ) (rest : Str) (h : s.quoted = false) : readCsv E atof (13#8 :: rest) s = readCsv E atof rest s := by
  rw [readCsv.eq_def]
  dsimp only
  rw [h]
  simp only [Bool.false_eq_true, if_false, if_true, show ¬(13#8 : Byte) = 44#8 by decide]
  split_ifs <;> rfl

/-- The end of a line. -/
def eol (crlf : Bool) : Str := if crlf then [13#8, 10#8] else [10#8]

theorem skip_eol (s : St σ) (rest : Str) (crlf : Bool) (h : s.quoted = false) : readCsv E atof (eol crlf ++ rest) s = readCsv E atof (10#8 :: rest) s := by
  cases crlf with
  | true => exact skip_cr s _ h
  | false => rfl

/-- The last field of a line. -/
theorem field_eol (db : σ) (row : List Word) (err : Int) (f : Field) (crlf : Bool) (rest : Str) (h : f.Ok) (hb : row ≠ [] ∨ f.text ≠ []) :
    readCsv E atof (f.text ++ (eol crlf ++ rest)) (at0 db row err) =
      finish E atof (at0 (E.encode db (parse atof f.content)).1 (row ++ [(E.encode db (parse atof f.content)).2.getD 0#64]) err) rest := by
  cases f with
  | quoted s =>
    have e : ∃ n t, eol crlf ++ rest = n :: t ∧ (n = 44#8 ∨ n = 13#8 ∨ n = 10#8) := by
      cases crlf
      · exact ⟨10#8, rest, rfl, by simp⟩
      · exact ⟨13#8, 10#8 :: rest, rfl, by simp⟩
    obtain ⟨n, t, e, hn⟩ := e
    rw [Field.text, e, quoted_run db row err s t n h hn, ← e, skip_eol _ _ _ rfl, readCsv.eq_def]
    simp only [Bool.false_eq_true, if_false, if_true, show ¬(10#8 : Byte) = 44#8 by decide, show ¬(10#8 : Byte) = 13#8 by decide, Bool.true_eq_false, false_and]
    rfl
  | plain s =>
    obtain ⟨h1, h2, h3⟩ := h
    cases s with
    | nil =>
      have hr : row ≠ [] := hb.resolve_right (by simp [Field.text])
      rw [Field.text, List.nil_append, skip_eol _ _ _ rfl, readCsv.eq_def, at0]
      simp only [Bool.false_eq_true, if_false, if_true, show ¬(10#8 : Byte) = 44#8 by decide, show ¬(10#8 : Byte) = 13#8 by decide, true_and, ne_eq, hr, not_false_eq_true]
      rw [commitField_ok rfl (by simp) (by simp)]
      rfl
    | cons c s =>
      obtain ⟨_, c1, c2, c3⟩ := h2 c (by simp)
      have c4 : c ≠ 34#8 := by simpa using h3
      rw [Field.text, List.cons_append, readCsv.eq_def, at0]
      simp only [Bool.false_eq_true, if_false, if_neg c1, if_neg c2, if_neg c3, if_neg c4, List.length_nil, show 0 < 4096 by omega, if_true, List.nil_append]
      rw [uq_run db row false err s [c] _ (by simp at h1 ⊢; omega) (fun d hd => (h2 d (by simp [hd])).2), skip_eol _ _ _ rfl, readCsv.eq_def]
      simp only [Bool.false_eq_true, if_false, if_true, show ¬(10#8 : Byte) = 44#8 by decide, show ¬(10#8 : Byte) = 13#8 by decide]
      rw [commitField_ok rfl (by simpa using h1) (fun d hd => (h2 d (by simpa using hd)).1)]
      rfl

/-- A line with something in it. -/
theorem line_run (fs : List Field) (db : σ) (row : List Word) (err : Int) (crlf : Bool) (rest : Str) (h : ∀ f ∈ fs, f.Ok) (h0 : fs ≠ [])
    (hb : row ≠ [] ∨ commas (fs.map Field.text) ≠ []) :
    readCsv E atof (commas (fs.map Field.text) ++ (eol crlf ++ rest)) (at0 db row err) =
      finish E atof (at0 (encodeRow E db ((fs.map Field.content).map (parse atof))).1 (row ++ (encodeRow E db ((fs.map Field.content).map (parse atof))).2) err) rest := by
  induction fs generalizing db row with
  | nil => exact absurd rfl h0
  | cons f fs ih =>
    cases fs with
    | nil =>
      have := field_eol (E := E) (atof := atof) db row err f crlf rest (h f (by simp)) (by simpa [commas] using hb)
      simpa [commas, encodeRow] using this
    | cons g fs =>
      have e : commas (List.map Field.text (f :: g :: fs)) ++ (eol crlf ++ rest) = f.text ++ 44#8 :: (commas (List.map Field.text (g :: fs)) ++ (eol crlf ++ rest)) := by
        simp [commas]
      rw [e, field_comma db row err f _ (h f (by simp)), ih _ _ (fun x hx => h x (by simp [hx])) (by simp) (Or.inl (by simp))]
      simp [encodeRow, List.append_assoc]

/-- A blank line. -/
theorem blank_run (db : σ) (err : Int) (crlf : Bool) (rest : Str) : readCsv E atof (eol crlf ++ rest) (at0 db [] err) = readCsv E atof rest (at0 db [] err) := by
  rw [skip_eol _ _ _ rfl, readCsv.eq_def, at0]
  simp only [Bool.false_eq_true, if_false, if_true, show ¬(10#8 : Byte) = 44#8 by decide, show ¬(10#8 : Byte) = 13#8 by decide, true_and, ne_eq, not_true_eq_false, commitRecord]

theorem encodeRow_length (E : Env σ) (db : σ) (r : List Val) : (encodeRow E db r).2.length = r.length := by
  induction r generalizing db with
  | nil => rfl
  | cons s r ih => simp [encodeRow, ih]

/-- All lines. -/
theorem lines_run (ls : List Line) (db : σ) (err : Int) (h : ∀ l ∈ ls, ∀ f ∈ l.fields, f.Ok) :
    (readCsv E atof (ls.flatMap Line.text) (at0 db [] err)).map (fun s => (s.db, s.err)) = some (load E db err ((rows ls).map (List.map (parse atof)))) := by
  induction ls generalizing db err with
  | nil => rw [List.flatMap_nil, readCsv]; rfl
  | cons l ls ih =>
    have ihl := fun db err => ih db err fun m hm => h m (by simp [hm])
    have et : l.text = commas (l.fields.map Field.text) ++ eol l.crlf := rfl
    rw [List.flatMap_cons, et, List.append_assoc]
    by_cases hb : l.Blank
    · have e : rows (l :: ls) = rows ls := by simp [rows, hb]
      rw [e, show commas (l.fields.map Field.text) = [] from hb, List.nil_append, blank_run]
      exact ihl db err
    · have e : rows (l :: ls) = l.fields.map Field.content :: rows ls := by simp [rows, hb]
      have h0 : l.fields ≠ [] := fun h => hb (by rw [Line.Blank, h]; rfl)
      rw [e, line_run l.fields db [] err l.crlf _ (h l (by simp)) h0 (Or.inr hb), List.nil_append, List.map_cons, load]
      have hl := encodeRow_length E db ((l.fields.map Field.content).map (parse atof))
      generalize encodeRow E db ((l.fields.map Field.content).map (parse atof)) = x at hl ⊢
      obtain ⟨db1, ws⟩ := x
      have hw : ws ≠ [] := by
        rintro rfl
        rw [List.length_map, List.length_map] at hl
        exact h0 (List.length_eq_zero_iff.1 hl.symm)
      dsimp only
      unfold finish commitRecord
      rw [if_neg (by exact hw)]
      simp only [at0]
      rcases E.create db1 ws with ⟨db2, c⟩
      cases c
      · exact ihl db2 err
      · rfl
      · exact ihl db2 (-2)

/-! ## Any file -/

/-- Nothing is kept in the buffer between fields, and it never runs over. -/
def Bounded (s : St σ) : Prop := s.buf.length ≤ 4095 ∧ (s.quoted = false → s.uq = false → s.buf = [])

theorem commitField_bounded {s : St σ} (h : s.buf.length ≤ 4095) : ∃ s', commitField E atof s = some s' ∧ Bounded s' := by
  unfold commitField
  rw [if_pos (by omega)]
  exact ⟨_, rfl, by simp [Bounded]⟩

theorem push_bounded {s : St σ} (c : Byte) (h : s.buf.length ≤ 4095) (hq : s.quoted = true ∨ s.uq = true) : Bounded (push s c) := by
  unfold push
  split_ifs with h1
  · refine ⟨by simp; omega, fun a b => ?_⟩
    dsimp only at a b
    rcases hq with hq | hq <;> simp_all
  · refine ⟨h, fun a b => ?_⟩
    rcases hq with hq | hq <;> simp_all

theorem commitRecord_bounded {s : St σ} (h : Bounded s) : Bounded (commitRecord E s).1 := by
  unfold commitRecord
  split_ifs
  · exact h
  · split <;> exact h

theorem read_safe (file : Str) (s : St σ) (h : Bounded s) : readCsv E atof file s ≠ none := by
  induction hn : file.length using Nat.strongRecOn generalizing file s with
  | ind n ih =>
    have ih' : ∀ (f : Str) (s : St σ), f.length < file.length → Bounded s → readCsv E atof f s ≠ none := fun f s hf hs => ih f.length (by omega) f s hs rfl
    have fin : ∀ (rest : Str) (s : St σ), rest.length < file.length → Bounded s → finish E atof s rest ≠ none := by
      intro rest s hf hs
      unfold finish
      have := commitRecord_bounded (E := E) hs
      generalize commitRecord E s = x at this
      obtain ⟨s', b⟩ := x
      cases b
      · exact ih' rest s' hf this
      · simp
    cases file with
    | nil => rw [readCsv]; simp
    | cons c rest =>
      rw [List.length_cons] at ih' fin
      rw [readCsv.eq_def]
      dsimp only
      split_ifs with h1 h2 h3 h4 h5 h6 h7 h8 h9 h10 h11 h12 h13
      · cases rest with
        | nil =>
          obtain ⟨s', e, _⟩ := commitField_bounded (E := E) (atof := atof) (s := { s with quoted := false, eat := true }) h.1
          dsimp only
          rw [e]; simp
        | cons n r =>
          obtain ⟨s', e, hs⟩ := commitField_bounded (E := E) (atof := atof) (s := { s with quoted := false, eat := true }) h.1
          dsimp only
          rw [e]
          rw [List.length_cons] at ih'
          split_ifs
          · exact ih' _ _ (by omega) hs
          · exact ih' _ _ (by simp) hs
          · exact ih' _ _ (by simp) ⟨h.1, fun a => by simp_all⟩
      · exact ih' _ _ (by omega) (push_bounded c h.1 (Or.inl h1))
      · obtain ⟨s', e, hs⟩ := commitField_bounded (E := E) (atof := atof) (s := { s with uq := false }) h.1
        rw [e]; exact ih' _ _ (by omega) hs
      · exact ih' _ _ (by omega) h
      · obtain ⟨s', e, hs⟩ := commitField_bounded (E := E) (atof := atof) (s := { s with uq := false }) h.1
        rw [e]; exact fin _ _ (by omega) hs
      · exact ih' _ _ (by omega) (push_bounded c h.1 (Or.inr h3))
      · exact ih' _ _ (by omega) h
      · obtain ⟨s', e, hs⟩ := commitField_bounded (E := E) (atof := atof) (s := s) h.1
        rw [e]; exact ih' _ _ (by omega) hs
      · exact ih' _ _ (by omega) h
      · obtain ⟨s', e, hs⟩ := commitField_bounded (E := E) (atof := atof) (s := s) h.1
        rw [e]; exact fin _ _ (by omega) hs
      · exact fin _ { s with eat := false } (by omega) h
      · exact ih' _ _ (by omega) ⟨h.1, by simp⟩
      · refine ih' _ _ (by omega) ⟨?_, by simp⟩
        have : s.buf = [] := h.2 (by simpa using h1) (by simpa using h3)
        simp [this]
      · have : s.buf = [] := h.2 (by simpa using h1) (by simpa using h3)
        simp [this] at h13

end WG.Csv
