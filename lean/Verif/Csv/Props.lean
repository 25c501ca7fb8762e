import Verif.Csv.Read
import Verif.Csv.Text
import Verif.Json.Top
/-!
# C58, C59: import and export of CSV files
-/
namespace WG.Csv
open Spec WG.Spec

variable {σ : Type} {E : Env σ} {atof : Str → Word × Bool} {fmtF : Word → Str}

/-- C58: a file of lines of fields, with or without quotes, is imported as exactly its rows: every field as the value that its content stands for, every row as one record, in order, and
nothing else. It makes no difference whether fields are quoted or how lines end. errno is clear at the start. -/
theorem C58_import_partial (db : σ) (ls : List Line) (h : ∀ l ∈ ls, ∀ f ∈ l.fields, f.Ok) :
    importCsv E atof false db (ls.flatMap Line.text) = some (load E db 0 ((rows ls).map (List.map (parse atof)))) := lines_run ls db 0 h

/-- C58: whatever bytes the file holds, the import writes no byte outside its field buffer. -/
theorem C58_safe (errno : Bool) (db : σ) (file : Str) : importCsv E atof errno db file ≠ none := by
  unfold importCsv
  rw [ne_eq, Option.map_eq_none_iff]
  exact read_safe file _ ⟨by simp, fun _ _ => rfl⟩

/-! ## Export -/

theorem escape_quote (s : Str) (h : Fits s) : csvEscape s 4094 = quote s := by
  have key : ∀ (s : Str) (k : Nat), k + (s.length + s.count 34#8) < 4093 → escapeLoop 4093 s k = s.flatMap (fun c => if c = 34#8 then [34#8, 34#8] else [c]) := by
    intro s
    induction s with
    | nil => intro k _; rfl
    | cons c s ih =>
      intro k hk
      rw [escapeLoop, List.flatMap_cons]
      by_cases hc : c = 34#8
      · subst hc
        rw [List.length_cons, List.count_cons_self] at hk
        rw [if_pos rfl, if_pos (by omega), if_pos rfl, ih _ (by omega)]
        rfl
      · rw [List.length_cons, List.count_cons_of_ne (by simpa using hc)] at hk
        rw [if_neg hc, if_pos (by omega), if_neg hc, ih _ (by omega)]
        rfl
  rw [csvEscape, quote, show 4094 - 1 = 4093 from rfl, key s 1 (by have := h.2; omega)]
  simp

theorem value_snoc (a : Str) (c : Byte) : value (a ++ [c]) = 10 * value a + (c.toNat - 48) := by
  rw [← decimal_value, ← decimal_value]
  simp [decimal]

theorem digits_text (n : Nat) : Digits (Json.digits n) ∧ value (Json.digits n) = n := by
  have dig : ∀ k, k < 10 → Digit (BitVec.ofNat 8 (48 + k)) ∧ (BitVec.ofNat 8 (48 + k)).toNat - 48 = k := by
    intro k hk
    have e : (BitVec.ofNat 8 (48 + k)).toNat = 48 + k := by rw [BitVec.toNat_ofNat]; omega
    exact ⟨⟨by omega, by omega⟩, by omega⟩
  induction n using Nat.strongRecOn with
  | ind n ih =>
    rw [Json.digits]
    split_ifs with h
    · refine ⟨⟨by simp, by simpa using (dig n h).1⟩, ?_⟩
      simp only [value, List.length_nil, Nat.pow_zero, Nat.mul_one, Nat.add_zero]
      exact (dig n h).2
    · obtain ⟨⟨_, h2⟩, h3⟩ := ih (n / 10) (by omega)
      have hd := dig (n % 10) (by omega)
      refine ⟨⟨by simp, ?_⟩, by rw [value_snoc, h3, hd.2]; omega⟩
      intro c hc
      rw [List.mem_append, List.mem_singleton] at hc
      rcases hc with hc | rfl
      · exact h2 c hc
      · exact hd.1

theorem fmtInt_text (n : Int) : IntText (Json.fmtInt n) n := by
  obtain ⟨h1, h2⟩ := digits_text n.natAbs
  unfold Json.fmtInt
  split_ifs with h
  · exact ⟨_, h1, Or.inr ⟨rfl, by rw [h2]; omega⟩⟩
  · exact ⟨_, h1, Or.inl ⟨rfl, by rw [h2]; omega⟩⟩

theorem fmtInt_length (n : Int) (h : -2 ^ 31 ≤ n ∧ n < 2 ^ 31) : (Json.fmtInt n).length ≤ 11 := by
  have := Json.digits_len n.natAbs 9 (by omega)
  unfold Json.fmtInt
  split_ifs
  · rw [List.length_cons]; omega
  · omega

theorem toInt32_eq (v : Word) (h : -2 ^ 31 ≤ v.toInt ∧ v.toInt < 2 ^ 31) : Json.toInt32 v = v.toInt := by
  unfold Json.toInt32
  rw [BitVec.truncate_eq_setWidth, BitVec.toInt_setWidth]
  have h1 : v.toInt = Int.bmod v.toNat (2 ^ 64) := BitVec.toInt_eq_toNat_bmod v
  have h2 : Int.bmod (Int.bmod v.toNat (2 ^ 64)) (2 ^ 32) = Int.bmod v.toNat (2 ^ 32) := Int.bmod_bmod_of_dvd (by decide)
  rw [← h1] at h2
  rw [← h2]
  exact Int.bmod_eq_of_le (by omega) (by omega)

/-- The field of a value. -/
def fieldOf (fmtF : Word → Str) : EVal → Field
  | .null => .plain []
  | .int v => .plain (Json.fmtInt v.toInt)
  | .double d => .plain (fmtF d)
  | .fixpoint d => .plain (fmtF d)
  | .str s => .quoted s
  | .xml s => .quoted s
  | .uri s p => .quoted (p.getD [] ++ s)
  | .char c => .plain [c]
  | .date d => .plain (bytes (((Iso.strf d 0).getD ([], 0)).1.take 10))
  | .time t => .plain (bytes (((Iso.strf 1 t).getD ([], 0)).1.drop 11))
  | .record _ => .plain []
  | .other => .plain []

/-- Bytes without a meaning in CSV. -/
theorem plain_ok {s : Str} (hl : s.length ≤ 4095) (h : ∀ c ∈ s, (48 ≤ c.toNat ∧ c.toNat ≤ 58) ∨ c = 45#8 ∨ c = 46#8) : (Field.plain s).Ok := by
  have ne : ∀ c : Byte, ((48 ≤ c.toNat ∧ c.toNat ≤ 58) ∨ c = 45#8 ∨ c = 46#8) → c ≠ 0#8 ∧ c ≠ 44#8 ∧ c ≠ 13#8 ∧ c ≠ 10#8 ∧ c ≠ 34#8 := by
    decide +kernel
  refine ⟨hl, fun c hc => ?_, ?_⟩
  · obtain ⟨a, b, d, e, _⟩ := ne c (h c hc)
    exact ⟨a, b, d, e⟩
  · cases s with
    | nil => simp
    | cons c s => simpa using (ne c (h c (by simp))).2.2.2.2

theorem point_ok {s : Str} (h : PointText s) (hl : s.length ≤ 79) : (Field.plain s).Ok := by
  refine plain_ok (by omega) fun c hc => ?_
  have dg : ∀ {c : Byte}, Digit c → (48 ≤ c.toNat ∧ c.toNat ≤ 58) ∨ c = 45#8 ∨ c = 46#8 := fun h => Or.inl ⟨h.1, by have := h.2; omega⟩
  obtain ⟨sign, a, b, rfl, hs, ha, hb⟩ := h
  simp only [List.mem_append, List.mem_cons] at hc
  rcases hc with (hc | hc) | rfl | hc
  · rcases hs with rfl | rfl
    · cases hc
    · exact Or.inr (Or.inl (by simpa using hc))
  · exact dg (ha.2 c hc)
  · exact Or.inr (Or.inr rfl)
  · exact dg (hb c hc)

theorem int_ok {s : Str} {n : Int} (h : IntText s n) (hl : s.length ≤ 79) : (Field.plain s).Ok := by
  refine plain_ok (by omega) fun c hc => ?_
  have dg : ∀ {c : Byte}, Digit c → (48 ≤ c.toNat ∧ c.toNat ≤ 58) ∨ c = 45#8 ∨ c = 46#8 := fun h => Or.inl ⟨h.1, by have := h.2; omega⟩
  obtain ⟨ds, hd, ⟨rfl, _⟩ | ⟨rfl, _⟩⟩ := h
  · exact dg (hd.2 c hc)
  · rw [List.mem_cons] at hc
    rcases hc with rfl | hc
    · exact Or.inr (Or.inl rfl)
    · exact dg (hd.2 c hc)

theorem bytes_ok {l : List Char} (h : ∀ c ∈ l, (48 ≤ c.toNat ∧ c.toNat ≤ 57) ∨ c = '-' ∨ c = ':' ∨ c = '.') :
    ∀ b ∈ bytes l, (48 ≤ b.toNat ∧ b.toNat ≤ 58) ∨ b = 45#8 ∨ b = 46#8 := by
  intro b hb
  rw [bytes, List.mem_map] at hb
  obtain ⟨c, hc, rfl⟩ := hb
  rcases h c hc with g | rfl | rfl | rfl
  · left
    rw [BitVec.toNat_ofNat]; omega
  · exact Or.inr (Or.inl rfl)
  · left; decide
  · exact Or.inr (Or.inr rfl)

theorem field_str {s : Str} (h : Fits s) : (Field.quoted s).Ok := ⟨by have := h.2; omega, h.1⟩

/-- A shown value is one field, and reading it gives the value that comes back. -/
theorem field_ok (v : EVal) (h : Shown fmtF v) : fieldText fmtF v = some (fieldOf fmtF v).text ∧ (fieldOf fmtF v).Ok ∧ parse atof (fieldOf fmtF v).content = back atof fmtF v := by
  cases v with
  | null => exact ⟨rfl, plain_ok (by simp) (by simp), rfl⟩
  | record _ => exact absurd h (by simp [Shown])
  | other => exact absurd h (by simp [Shown])
  | int v =>
    have hl := fmtInt_length v.toInt h
    refine ⟨?_, int_ok (fmtInt_text _) (by omega), ?_⟩
    · rw [fieldText, toInt32_eq v h, List.take_of_length_le (by omega)]; rfl
    · have := C57_int (atof := atof) (fmtInt_text v.toInt) (by omega)
      obtain ⟨h1, h2⟩ := h
      rw [if_pos ⟨by omega, by omega⟩, BitVec.ofInt_toInt] at this
      exact this
  | double d =>
    refine ⟨?_, point_ok h.1 h.2, C57_double h.1 h.2⟩
    rw [fieldText, List.take_of_length_le (by have := h.2; omega)]; rfl
  | fixpoint d =>
    refine ⟨?_, point_ok h.1 h.2, C57_double h.1 h.2⟩
    rw [fieldText, List.take_of_length_le (by have := h.2; omega)]; rfl
  | str s => exact ⟨by rw [fieldText, escape_quote s h]; rfl, field_str h, rfl⟩
  | xml s => exact ⟨by rw [fieldText, escape_quote s h]; rfl, field_str h, rfl⟩
  | uri s p =>
    cases p with
    | none => exact absurd h (by simp [Shown])
    | some p => exact ⟨by rw [fieldText, escape_quote _ h]; rfl, field_str h, rfl⟩
  | char c =>
    obtain ⟨h1, h2, h3, h4, h5⟩ := h
    refine ⟨?_, ⟨by simp, ?_, by simpa using h5⟩, rfl⟩
    · rw [fieldText, List.takeWhile_cons, if_pos (by simpa using h1)]; rfl
    · intro d hd
      rw [List.mem_singleton] at hd
      subst hd
      exact ⟨h1, h2, h3, h4⟩
  | date n =>
    obtain ⟨y, m, d, hd, hy, rfl⟩ := Iso.split_date n h.1 h.2
    have hf := Iso.C51_format y m d 0 0 0 0 hd hy (by omega) (by omega) (by omega) (by omega)
    have h0 : hmsToTime ((0 : Nat) : Int) ((0 : Nat) : Int) ((0 : Nat) : Int) ((0 : Nat) : Int) = 0 := by decide
    rw [h0] at hf
    have e : (((Iso.strf (ymdToDate y m d) 0).getD ([], 0)).1.take 10) = Iso.dateText y m d := by
      rw [hf, Option.getD_some]
      simp only [List.append_assoc]
      exact List.take_left' (by simp [Iso.dateText, Iso.places_length])
    have e1 : fieldOf fmtF (.date (ymdToDate y m d)) = .plain (bytes (Iso.dateText y m d)) := by rw [fieldOf, e]
    rw [e1]
    refine ⟨?_, plain_ok (by simp [bytes, Iso.dateText, Iso.places_length]) (bytes_ok ?_), ?_⟩
    · rw [← e, fieldText, hf]; rfl
    · intro c hc
      simp only [Iso.dateText, List.mem_append, List.mem_singleton] at hc
      rcases hc with (((hc | rfl) | hc) | rfl) | hc
      · exact Or.inl (places_small _ _ c hc).2.2.2
      · simp
      · exact Or.inl (places_small _ _ c hc).2.2.2
      · simp
      · exact Or.inl (places_small _ _ c hc).2.2.2
    · have := C57_date (atof := atof) y m d hd hy []
      rw [List.append_nil] at this
      exact this
  | time n =>
    obtain ⟨hh, mm, ss, pp, h1, h2, h3, h4, rfl⟩ := Iso.split_time n h.1 h.2
    have hf := Iso.C51_format 1 1 1 hh mm ss pp (by unfold ValidDate monthLen; decide) (by omega) h1 h2 h3 h4
    have h0 : ymdToDate ((1 : Nat) : Int) ((1 : Nat) : Int) ((1 : Nat) : Int) = 1 := by decide
    rw [h0] at hf
    have e : (((Iso.strf 1 (hmsToTime hh mm ss pp)).getD ([], 0)).1.drop 11) = Iso.clockText hh mm ss ++ ['.'] ++ Iso.places 2 pp := by
      rw [hf, Option.getD_some]
      rw [List.append_assoc, List.append_assoc, List.drop_left' (by simp [Iso.dateText, Iso.places_length])]
      simp
    have e1 : fieldOf fmtF (.time (hmsToTime hh mm ss pp)) = .plain (bytes (Iso.clockText hh mm ss ++ ['.'] ++ Iso.places 2 pp)) := by rw [fieldOf, e]
    rw [e1]
    refine ⟨?_, plain_ok (by simp [bytes, Iso.clockText, Iso.places_length]) (bytes_ok ?_), ?_⟩
    · rw [← e, fieldText, hf]; rfl
    · intro c hc
      simp only [Iso.clockText, List.mem_append, List.mem_singleton] at hc
      rcases hc with ((((((hc | rfl) | hc) | rfl) | hc) | rfl) | hc)
      · exact Or.inl (places_small _ _ c hc).2.2.2
      · simp
      · exact Or.inl (places_small _ _ c hc).2.2.2
      · simp
      · exact Or.inl (places_small _ _ c hc).2.2.2
      · simp
      · exact Or.inl (places_small _ _ c hc).2.2.2
    · have := (C57_time (atof := atof) hh mm ss pp h1 h2 h3 h4 []).1
      rw [List.append_nil] at this
      exact this

theorem row_ok (r : List EVal) (h : ∀ v ∈ r, Shown fmtF v) : rowText fmtF r = some (commas ((r.map (fieldOf fmtF)).map Field.text)) := by
  induction r with
  | nil => rfl
  | cons v r ih =>
    have hv := (field_ok (atof := fun _ => (0#64, false)) v (h v (by simp))).1
    cases r with
    | nil => exact hv
    | cons w r =>
      rw [rowText, hv, ih fun x hx => h x (by simp [hx])]
      simp [commas]

theorem export_ok (rs : List (List EVal)) (h : ∀ r ∈ rs, ∀ v ∈ r, Shown fmtF v) :
    exportCsv fmtF rs = some ((rs.map fun r => (⟨r.map (fieldOf fmtF), false⟩ : Line)).flatMap Line.text) := by
  induction rs with
  | nil => rfl
  | cons r rs ih =>
    rw [exportCsv, row_ok r (h r (by simp)), ih fun x hx => h x (by simp [hx])]
    simp [Line.text]

theorem escape_length (s : Str) (k : Nat) (hk : k < 4093) : k + (escapeLoop 4093 s k).length ≤ 4092 := by
  induction s generalizing k with
  | nil => simp [escapeLoop]; omega
  | cons c s ih =>
    rw [escapeLoop]
    split_ifs with h1 h2 h3
    · have := ih (k + 2) (by omega)
      simp only [List.length_cons]; omega
    · simp; omega
    · have := ih (k + 1) (by omega)
      simp only [List.length_cons]; omega
    · simp; omega

/-- C59: the text of any value, with its end mark, fits the 4096 bytes of the field buffer of the export. -/
theorem C59_fits (v : EVal) (t : Str) (h : fieldText fmtF v = some t) : t.length + 1 ≤ 4096 := by
  have esc : ∀ s, (csvEscape s 4094).length ≤ 4093 := by
    intro s
    have := escape_length s 1 (by omega)
    rw [csvEscape, show 4094 - 1 = 4093 from rfl]
    simp only [List.length_append, List.length_cons, List.length_nil]
    omega
  cases v with
  | null => cases h; simp
  | record _ => cases h; rw [List.length_take]; omega
  | int _ => cases h; rw [List.length_take]; omega
  | double _ => cases h; rw [List.length_take]; omega
  | fixpoint _ => cases h; rw [List.length_take]; omega
  | str s => cases h; have := esc s; omega
  | xml s => cases h; have := esc s; omega
  | uri s p =>
    cases p with
    | none => cases h
    | some p => cases h; have := esc (p ++ s); omega
  | char c => cases h; have := (List.takeWhile_sublist (l := [c]) (· ≠ 0#8)).length_le; simp only [List.length_singleton] at this; omega
  | date d =>
    rw [fieldText, Option.map_eq_some_iff] at h
    obtain ⟨a, ha, rfl⟩ := h
    rw [bytes, List.length_map, List.length_take]; omega
  | time d =>
    rw [fieldText, Option.map_eq_some_iff] at h
    obtain ⟨⟨a, n⟩, ha, rfl⟩ := h
    have := Iso.C51_fits _ _ _ _ ha
    rw [bytes, List.length_map, List.length_drop]; dsimp only; omega
  | other => cases h; decide

/-- C59: exporting records and importing the file: every record comes back as one record with the same number of fields, in the same order; NULL, integers of 32 bits, dates and times come
back as they were, texts as the value that they look like, doubles as `%f` writes and atof reads them. A record that is a single NULL is not in the file. -/
theorem C59_roundtrip_partial (db : σ) (rs : List (List EVal)) (h : ∀ r ∈ rs, ∀ v ∈ r, Shown fmtF v) (h0 : ∀ r ∈ rs, r ≠ [] ∧ r ≠ [.null]) :
    ∃ file, exportCsv fmtF rs = some file ∧ importCsv E atof false db file = some (load E db 0 (rs.map (List.map (back atof fmtF)))) := by
  refine ⟨_, export_ok rs h, ?_⟩
  rw [C58_import_partial]
  · congr 2
    induction rs with
    | nil => rfl
    | cons r rs ih =>
      have ih' := ih (fun x hx => h x (by simp [hx])) (fun x hx => h0 x (by simp [hx]))
      have hb : ¬(⟨r.map (fieldOf fmtF), false⟩ : Line).Blank := by
        obtain ⟨g1, g2⟩ := h0 r (by simp)
        intro hb
        unfold Line.Blank at hb
        rcases r with _ | ⟨v, _ | ⟨w, r⟩⟩
        · exact g1 rfl
        · have hs := h [v] (by simp) v (by simp)
          have hb' : (fieldOf fmtF v).text = [] := hb
          have hok := field_ok (atof := atof) v hs
          cases v with
          | null => exact g2 rfl
          | record _ => exact absurd hs (by simp [Shown])
          | other => exact absurd hs (by simp [Shown])
          | str s => simp [fieldOf, Field.text, quote] at hb'
          | xml s => simp [fieldOf, Field.text, quote] at hb'
          | uri s p => simp [fieldOf, Field.text, quote] at hb'
          | char c => simp [fieldOf, Field.text] at hb'
          | int v =>
            obtain ⟨ds, hd, ⟨e, _⟩ | ⟨e, _⟩⟩ := fmtInt_text v.toInt
            · simp only [fieldOf, Field.text] at hb'; rw [e] at hb'; exact hd.1 hb'
            · simp only [fieldOf, Field.text] at hb'; rw [e] at hb'; cases hb'
          | double d =>
            obtain ⟨sign, a, b, e, _⟩ := hs.1
            simp only [fieldOf, Field.text] at hb'; rw [e] at hb'; simp at hb'
          | fixpoint d =>
            obtain ⟨sign, a, b, e, _⟩ := hs.1
            simp only [fieldOf, Field.text] at hb'; rw [e] at hb'; simp at hb'
          | date d =>
            have := hok.2.2
            simp only [fieldOf, Field.text, Field.content] at hb' this
            rw [hb'] at this; cases this
          | time t =>
            have := hok.2.2
            simp only [fieldOf, Field.text, Field.content] at hb' this
            rw [hb'] at this; cases this
        · simp [commas] at hb
      have e : rows ((r :: rs).map fun r => (⟨r.map (fieldOf fmtF), false⟩ : Line)) =
          (r.map (fieldOf fmtF)).map Field.content :: rows (rs.map fun r => (⟨r.map (fieldOf fmtF), false⟩ : Line)) := by
        simp [rows, hb]
      rw [e, List.map_cons, List.map_cons, ih']
      congr 1
      rw [List.map_map, List.map_map]
      apply List.map_congr_left
      intro v hv
      exact (field_ok v (h r (by simp) v hv)).2.2
  · intro l hl f hf
    rw [List.mem_map] at hl
    obtain ⟨r, hr, rfl⟩ := hl
    rw [List.mem_map] at hf
    obtain ⟨v, hv, rfl⟩ := hf
    exact (field_ok (atof := atof) v (h r hr v hv)).2.1

end WG.Csv
