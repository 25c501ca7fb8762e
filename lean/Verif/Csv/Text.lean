import Verif.Csv.Parse
/-!
# C57: the value that a text stands for

`Spec.parse` is wg_parse_and_encode up to the encoder it calls. `atof` stands for the C function, with a mark for values out of range.
-/
namespace WG.Csv
open Spec WG.Spec

variable {atof : Str → Word × Bool}

theorem value_lt (s : Str) (h : ∀ c ∈ s, Digit c) : value s < 10 ^ s.length := by
  induction s with
  | nil => simp [value]
  | cons c s ih =>
    have h1 := ih fun d hd => h d (by simp [hd])
    have h2 := (h c (by simp)).2
    have h3 : (c.toNat - 48) * 10 ^ s.length ≤ 9 * 10 ^ s.length := Nat.mul_le_mul_right _ (by omega)
    rw [value, List.length_cons, Nat.pow_succ]
    omega

/-- The value of atol in its range. -/
def clamp (v : Int) : Int × Bool := if v > 2 ^ 63 - 1 then (2 ^ 63 - 1, true) else if v < -2 ^ 63 then (-2 ^ 63, true) else (v, false)

theorem atol_pos {ds : Str} (h : Digits ds) : atol ds = clamp (value ds) := by
  obtain ⟨h0, h1⟩ := h
  cases ds with
  | nil => exact absurd rfl h0
  | cons c r =>
    unfold atol
    dsimp only
    rw [if_neg (digit_ne (h1 c (by simp))).1, take_digits h1, decimal_value]
    rfl

theorem atol_neg {ds : Str} (h : Digits ds) : atol (45#8 :: ds) = clamp (-(value ds : Int)) := by
  unfold atol
  dsimp only
  rw [if_pos rfl, take_digits h.2, decimal_value]
  rfl

theorem clamp_in {v : Int} (h : -2 ^ 63 ≤ v ∧ v < 2 ^ 63) : clamp v = (v, false) := by
  unfold clamp
  rw [if_neg (by omega), if_neg (by omega)]

theorem clamp_out {v : Int} (h : ¬(-2 ^ 63 ≤ v ∧ v < 2 ^ 63)) : (clamp v).2 = true := by
  unfold clamp
  split_ifs
  · rfl
  · rfl
  · exfalso; omega

/-- The text starts like a number. -/
def Start (s : Str) : Prop := ∃ c r, s = c :: r ∧ (Digit c ∨ c = 45#8 ∧ ∃ d t, r = d :: t ∧ Digit d)

theorem start_iff {c : Byte} {r : Str} : (isDig c = true ∨ (c = 45#8 ∧ r.head?.any isDig = true)) ↔ Start (c :: r) := by
  constructor
  · rintro (h | ⟨h1, h2⟩)
    · exact ⟨c, r, rfl, Or.inl (isDig_iff.1 h)⟩
    · refine ⟨c, r, rfl, Or.inr ⟨h1, ?_⟩⟩
      cases r with
      | nil => simp at h2
      | cons d t => exact ⟨d, t, rfl, isDig_iff.1 (by simpa using h2)⟩
  · rintro ⟨c', r', e, h⟩
    obtain ⟨rfl, rfl⟩ := List.cons.inj e
    rcases h with h | ⟨h1, d, t, rfl, h2⟩
    · exact Or.inl (isDig_iff.2 h)
    · exact Or.inr ⟨h1, by simpa using isDig_iff.2 h2⟩

/-- The number branch. -/
def number (atof : Str → Word × Bool) (s : Str) : Val :=
  if (scanNum s 0 0).2 = 1 then (if (atof (scanNum s 0 0).1).2 then .str s else .double (atof (scanNum s 0 0).1).1)
  else if (scanNum s 0 0).2 = 0 then (if (atol (scanNum s 0 0).1).2 then .str s else .int (BitVec.ofInt 64 (atol (scanNum s 0 0).1).1))
  else .str s

open Classical in
theorem parse_eq (s : Str) : parse atof s =
    if s = [] then .null else if ¬Start s then .str s
    else if s.head? ≠ some 45#8 ∧ Iso.strpDate (chars s) ≥ 0 then .date (Iso.strpDate (chars s))
    else if s.head? ≠ some 45#8 ∧ Iso.strpTime (chars s) ≥ 0 then .time (Iso.strpTime (chars s))
    else number atof s := by
  unfold parse parseInput
  cases s with
  | nil => rfl
  | cons c r =>
    rw [if_neg (by simp)]
    dsimp only
    by_cases h : Start (c :: r)
    · rw [if_pos (start_iff.2 h), if_neg (not_not.2 h)]
      simp only [List.head?_cons, ne_eq, Option.some.injEq]
      split_ifs <;> first | rfl | skip
      all_goals (unfold number; simp_all)
    · rw [if_neg fun g => h (start_iff.1 g), if_pos h]

theorem no_sep {s : Str} (h : s.head? = some 45#8 ∨ ∀ c ∈ s, Digit c ∨ c = 46#8) (h0 : Start s) : parse atof s = number atof s := by
  rw [parse_eq, if_neg (by rintro rfl; obtain ⟨c, r, e, _⟩ := h0; cases e), if_neg (not_not.2 h0)]
  rcases h with h | h
  · rw [if_neg (by simp [h]), if_neg (by simp [h])]
  · have hn : ∀ c ∈ s, c.toNat ≠ 45 ∧ c.toNat ≠ 58 := by
      intro c hc
      rcases h c hc with g | rfl
      · exact (digit_ne g).2.2
      · decide
    rw [no_date (chars_no fun c hc => (hn c hc).1), no_time (chars_no fun c hc => (hn c hc).2)]
    rw [if_neg (by omega), if_neg (by omega)]

theorem start_digits {ds : Str} (h : Digits ds) (t : Str) : Start (ds ++ t) ∧ Start (45#8 :: (ds ++ t)) := by
  obtain ⟨h0, h1⟩ := h
  cases ds with
  | nil => exact absurd rfl h0
  | cons c r => exact ⟨⟨c, r ++ t, rfl, Or.inl (h1 c (by simp))⟩, _, _, rfl, Or.inr ⟨rfl, c, r ++ t, rfl, h1 c (by simp)⟩⟩

theorem scanNum_minus (s : Str) : scanNum (45#8 :: s) 0 0 = (45#8 :: (scanNum s 1 0).1, (scanNum s 1 0).2) := by
  rw [scanNum, if_neg (by decide), if_neg (by simp), if_neg (by omega)]

/-- C57: the decimal text of an integer, leading zeros included, at most 79 characters long, is that integer if it has 64 bits, and a string otherwise. -/
theorem C57_int {s : Str} {n : Int} (h : IntText s n) (hl : s.length ≤ 79) :
    parse atof s = if -2 ^ 63 ≤ n ∧ n < 2 ^ 63 then .int (BitVec.ofInt 64 n) else .str s := by
  have key : ∀ v : Int, (scanNum s 0 0) = (s, 0) → atol s = clamp v → number atof s = if -2 ^ 63 ≤ v ∧ v < 2 ^ 63 then .int (BitVec.ofInt 64 v) else .str s := by
    intro v h1 h2
    unfold number
    rw [h1, if_neg (by simp), if_pos rfl, h2]
    split_ifs with g1 g2
    · rw [clamp_in g2] at g1; simp at g1
    · rfl
    · rw [clamp_in ‹_›]
    · exact absurd (clamp_out ‹_›) ‹_›
  obtain ⟨ds, hd, ⟨rfl, rfl⟩ | ⟨rfl, rfl⟩⟩ := h
  · have := (start_digits hd []).1
    rw [List.append_nil] at this
    rw [no_sep (Or.inr fun c hc => Or.inl (hd.2 c hc)) this]
    exact key _ (scanNum_digits s hd.2 0 0 (by omega)) (atol_pos hd)
  · have := (start_digits hd []).2
    rw [List.append_nil] at this
    rw [no_sep (Or.inl rfl) this]
    rw [List.length_cons] at hl
    exact key _ (by rw [scanNum_minus, scanNum_digits ds hd.2 1 0 (by omega)]) (atol_neg hd)

theorem scanNum_point (a b : Str) (ha : ∀ c ∈ a, Digit c) (hb : ∀ c ∈ b, Digit c) (k : Nat) (hl : k + (a ++ 46#8 :: b).length ≤ 79) :
    scanNum (a ++ 46#8 :: b) k 0 = (a ++ 46#8 :: b, 1) := by
  rw [List.length_append, List.length_cons] at hl
  rw [scanNum_append a _ ha k 0 (by omega), scanNum, if_pos rfl]
  split_ifs with h
  · have : b = [] := List.length_eq_zero_iff.1 (by omega)
    subst this; rfl
  · rw [scanNum_digits b hb _ _ (by omega)]

/-- C57: a text with digits, one decimal point and maybe more digits, at most 79 characters long, is the double that atof gives, and a string if that is out of range. -/
theorem C57_double {s : Str} (h : PointText s) (hl : s.length ≤ 79) : parse atof s = if (atof s).2 then .str s else .double (atof s).1 := by
  have key : (scanNum s 0 0) = (s, 1) → number atof s = if (atof s).2 then .str s else .double (atof s).1 := by
    intro h1
    unfold number
    rw [h1, if_pos rfl]
  obtain ⟨sign, a, b, rfl, rfl | rfl, ha, hb⟩ := h
  · rw [List.nil_append] at hl key ⊢
    rw [no_sep ?_ (start_digits ha _).1]
    · exact key (scanNum_point a b ha.2 hb 0 (by omega))
    · right
      intro c hc
      rw [List.mem_append, List.mem_cons] at hc
      rcases hc with hc | rfl | hc
      · exact Or.inl (ha.2 c hc)
      · exact Or.inr rfl
      · exact Or.inl (hb c hc)
  · have e : [45#8] ++ a ++ 46#8 :: b = 45#8 :: (a ++ 46#8 :: b) := by simp
    rw [e] at hl key ⊢
    rw [no_sep (Or.inl rfl) (start_digits ha _).2]
    rw [List.length_cons] at hl
    exact key (by rw [scanNum_minus, scanNum_point a b ha.2 hb 1 (by omega)])

/-- From the scan back to the text. -/
theorem start_scan {s : Str} (h : Start s) (hl : s.length ≤ 79) :
    ((scanNum s 0 0).2 = 0 → ∃ n, IntText s n) ∧ ((scanNum s 0 0).2 = 1 → PointText s) := by
  obtain ⟨c, r, rfl, hc⟩ := h
  rw [List.length_cons] at hl
  have hc46 : c ≠ 46#8 := by
    rcases hc with hc | ⟨rfl, _⟩
    · exact (digit_ne hc).2.1
    · decide
  have e : (scanNum (c :: r) 0 0).2 = (scanNum r 1 0).2 := by
    rw [scanNum, if_neg hc46, if_neg (by simp), if_neg (by omega)]
  rw [e]
  constructor
  · intro h
    have hr := scanNum_same r 1 0 (by omega) (by omega) (by omega) h
    rcases hc with hc | ⟨rfl, d, t, rfl, hd⟩
    · exact ⟨_, c :: r, ⟨by simp, by simpa using ⟨hc, hr⟩⟩, Or.inl ⟨rfl, rfl⟩⟩
    · exact ⟨_, d :: t, ⟨by simp, hr⟩, Or.inr ⟨rfl, rfl⟩⟩
  · intro h
    obtain ⟨a, b, rfl, ha, hb⟩ := scanNum_one r 1 (by omega) (by omega) h
    rcases hc with hc | ⟨rfl, d, t, hd, hd'⟩
    · exact ⟨[], c :: a, b, by simp, Or.inl rfl, ⟨by simp, by simpa using ⟨hc, ha⟩⟩, hb⟩
    · refine ⟨[45#8], a, b, by simp, Or.inr rfl, ⟨?_, ha⟩, hb⟩
      rintro rfl
      obtain ⟨rfl, _⟩ := List.cons.inj hd
      exact (digit_ne hd').2.1 rfl

theorem number_cases (s : Str) : (∃ v, number atof s = .int v ∧ (scanNum s 0 0).2 = 0) ∨ (∃ d, number atof s = .double d ∧ (scanNum s 0 0).2 = 1) ∨ number atof s = .str s := by
  unfold number
  split_ifs with h1 h2 h3 h4
  · exact Or.inr (Or.inr rfl)
  · exact Or.inr (Or.inl ⟨_, rfl, h1⟩)
  · exact Or.inr (Or.inr rfl)
  · exact Or.inl ⟨_, rfl, h3⟩
  · exact Or.inr (Or.inr rfl)

theorem parse_cases (s : Str) : parse atof s = .str s ∨ (s = [] ∧ parse atof s = .null) ∨ (Start s ∧ s.head? ≠ some 45#8 ∧ ∃ d, parse atof s = .date d ∧ d = Iso.strpDate (chars s) ∧ 0 ≤ d) ∨
    (Start s ∧ s.head? ≠ some 45#8 ∧ ∃ d, parse atof s = .time d ∧ d = Iso.strpTime (chars s) ∧ 0 ≤ d) ∨ (Start s ∧ parse atof s = number atof s) := by
  rw [parse_eq]
  split_ifs with h1 h2 h3 h4
  · exact Or.inr (Or.inl ⟨h1, rfl⟩)
  · exact Or.inr (Or.inr (Or.inl ⟨h2, h3.1, _, rfl, rfl, h3.2⟩))
  · exact Or.inr (Or.inr (Or.inr (Or.inl ⟨h2, h4.1, _, rfl, rfl, h4.2⟩)))
  · exact Or.inr (Or.inr (Or.inr (Or.inr ⟨h2, rfl⟩)))
  · exact Or.inl rfl

/-- C57: a text of at most 79 characters is taken for an integer exactly if it is the decimal text of a 64-bit integer, and for a double exactly if it is digits with a decimal point
whose value atof can represent; an empty text, and only that, is NULL; and what is taken for a string is the text itself, whatever its length. -/
theorem C57_exact_partial (s : Str) :
    (s.length ≤ 79 → ∀ v, parse atof s = .int v ↔ ∃ n, IntText s n ∧ -2 ^ 63 ≤ n ∧ n < 2 ^ 63 ∧ v = BitVec.ofInt 64 n) ∧
    (s.length ≤ 79 → ∀ d, parse atof s = .double d ↔ PointText s ∧ atof s = (d, false)) ∧
    (parse atof s = .null ↔ s = []) ∧
    (∀ t, parse atof s = .str t → t = s) := by
  refine ⟨fun hl v => ⟨fun h => ?_, ?_⟩, fun hl d => ⟨fun h => ?_, ?_⟩, ⟨fun h => ?_, ?_⟩, fun t h => ?_⟩
  · rcases parse_cases (atof := atof) s with g | ⟨_, g⟩ | ⟨_, _, d, g, _⟩ | ⟨_, _, d, g, _⟩ | ⟨hs, g⟩ <;> rw [g] at h
    · cases h
    · cases h
    · cases h
    · cases h
    · rcases number_cases (atof := atof) s with ⟨w, e, hw⟩ | ⟨d, e, _⟩ | e <;> rw [e] at h
      · obtain ⟨n, hn⟩ := (start_scan hs hl).1 hw
        have := C57_int (atof := atof) hn hl
        rw [g, e, h] at this
        split_ifs at this with hr
        exact ⟨n, hn, hr.1, hr.2, Val.int.inj this⟩
      · cases h
      · cases h
  · rintro ⟨n, h1, h2, h3, rfl⟩
    rw [C57_int h1 hl, if_pos ⟨h2, h3⟩]
  · rcases parse_cases (atof := atof) s with g | ⟨_, g⟩ | ⟨_, _, d, g, _⟩ | ⟨_, _, d, g, _⟩ | ⟨hs, g⟩ <;> rw [g] at h
    · cases h
    · cases h
    · cases h
    · cases h
    · rcases number_cases (atof := atof) s with ⟨w, e, hw⟩ | ⟨d, e, hw⟩ | e <;> rw [e] at h
      · cases h
      · have hp := (start_scan hs hl).2 hw
        have := C57_double (atof := atof) hp hl
        rw [g, e, h] at this
        split_ifs at this with hr
        exact ⟨hp, Prod.ext (Val.double.inj this).symm (by simpa using hr)⟩
      · cases h
  · rintro ⟨h1, h2⟩
    rw [C57_double h1 hl, h2]; rfl
  · rcases parse_cases (atof := atof) s with g | ⟨e, g⟩ | ⟨_, _, d, g, _⟩ | ⟨_, _, d, g, _⟩ | ⟨hs, g⟩
    · rw [g] at h; cases h
    · exact e
    · rw [g] at h; cases h
    · rw [g] at h; cases h
    · rcases number_cases (atof := atof) s with ⟨w, e, _⟩ | ⟨d, e, _⟩ | e <;> rw [g, e] at h <;> cases h
  · rintro rfl; rfl
  · rcases parse_cases (atof := atof) s with g | ⟨_, g⟩ | ⟨_, _, d, g, _⟩ | ⟨_, _, d, g, _⟩ | ⟨hs, g⟩ <;> rw [g] at h
    · exact (Val.str.inj h).symm
    · cases h
    · cases h
    · cases h
    · rcases number_cases (atof := atof) s with ⟨w, e, _⟩ | ⟨d, e, _⟩ | e <;> rw [e] at h
      · cases h
      · cases h
      · exact (Val.str.inj h).symm

/-- C57: a text that starts neither with a digit nor with a minus sign and a digit is a string. -/
theorem C57_string {s : Str} (h0 : s ≠ []) (h : ∀ c r, s = c :: r → ¬Digit c ∧ (c = 45#8 → ∀ d, r.head? = some d → ¬Digit d)) : parse atof s = .str s := by
  rw [parse_eq, if_neg h0, if_pos]
  rintro ⟨c, r, rfl, hc | ⟨rfl, d, t, rfl, hd⟩⟩
  · exact (h c r rfl).1 hc
  · exact (h _ _ rfl).2 rfl d rfl hd

theorem chars_bytes (l : List Char) (h : ∀ c ∈ l, c.toNat < 256) : chars (bytes l) = l := by
  induction l with
  | nil => rfl
  | cons c l ih =>
    have hc := h c (by simp)
    have := ih fun d hd => h d (by simp [hd])
    simp only [chars, bytes, List.map_cons, List.map_map] at this ⊢
    rw [this]
    congr 1
    rw [BitVec.toNat_ofNat, Nat.mod_eq_of_lt hc]
    exact Char.ofNat_toNat c

theorem chars_append (a b : Str) : chars (a ++ b) = chars a ++ chars b := by simp [chars]

theorem digit_byte {n : Nat} (h : n < 10) : (Iso.digit n).toNat = 48 + n := by
  have : ∀ n : Fin 10, (Iso.digit n).toNat = 48 + n := by decide
  exact this ⟨n, h⟩

theorem places_small (w n : Nat) : ∀ c ∈ Iso.places w n, c.toNat < 256 ∧ c ≠ '-' ∧ c ≠ ':' ∧ 48 ≤ c.toNat ∧ c.toNat ≤ 57 := by
  induction w with
  | zero => simp [Iso.places]
  | succ w ih =>
    intro c hc
    rw [Iso.places, List.mem_cons] at hc
    rcases hc with rfl | hc
    · have h := digit_byte (Nat.mod_lt (n / 10 ^ w) (by decide : 10 > 0))
      have h' := Nat.mod_lt (n / 10 ^ w) (by decide : 10 > 0)
      refine ⟨by omega, ?_, ?_, by omega, by omega⟩ <;> (intro e; rw [e] at h)
      · have : ('-').toNat = 45 := rfl
        omega
      · have : (':').toNat = 58 := rfl
        omega
    · exact ih c hc

/-- C57: the text of a valid day, YYYY-MM-DD, is that date (whatever follows in the text). -/
theorem C57_date (y m d : Nat) (hd : ValidDate y m d) (hy : y ≤ 9999) (t : Str) : parse atof (bytes (Iso.dateText y m d) ++ t) = .date (ymdToDate y m d) := by
  have hb : ∀ c ∈ Iso.dateText y m d, c.toNat < 256 := by
    intro c hc
    simp only [Iso.dateText, List.mem_append, List.mem_singleton] at hc
    rcases hc with (((hc | rfl) | hc) | rfl) | hc
    · exact (places_small _ _ c hc).1
    · decide
    · exact (places_small _ _ c hc).1
    · decide
    · exact (places_small _ _ c hc).1
  have hp := Iso.C51_parse_date y m d hd hy (chars t)
  rw [← chars_bytes _ hb, ← chars_append] at hp
  have hge : 0 ≤ ymdToDate y m d := by
    obtain ⟨s, _, e, _⟩ := scalar_roundtrip y m d hd
    rw [ymdToDate_valid y m d hd (by omega), e]; omega
  have hs : ∃ c r, bytes (Iso.dateText y m d) ++ t = c :: r ∧ Digit c := by
    refine ⟨BitVec.ofNat 8 (Iso.digit (y / 10 ^ 3 % 10)).toNat, _, rfl, ?_⟩
    have h' := Nat.mod_lt (y / 10 ^ 3) (by decide : 10 > 0)
    rw [digit_byte h', Digit, BitVec.toNat_ofNat]
    omega
  obtain ⟨c, r, e, hc⟩ := hs
  rw [parse_eq, if_neg (by rw [e]; simp), if_neg (not_not.2 ⟨c, r, e, Or.inl hc⟩), if_pos, hp]
  exact ⟨by rw [e]; simpa using (digit_ne hc).1, by rw [hp]; exact hge⟩

theorem clock_no_date (hh mm ss : Nat) (t : List Char) : Iso.strpDate (Iso.clockText hh mm ss ++ t) = -1 := by
  have h1 := Iso.digit_isDigit (Nat.mod_lt (hh / 10 ^ 1) (by decide : 10 > 0))
  have h2 := Iso.digit_isDigit (Nat.mod_lt (hh / 10 ^ 0) (by decide : 10 > 0))
  have e : Iso.clockText hh mm ss ++ t = Iso.digit (hh / 10 ^ 1 % 10) :: Iso.digit (hh / 10 ^ 0 % 10) :: ':' :: (Iso.places 2 mm ++ [':'] ++ Iso.places 2 ss ++ t) := by
    simp [Iso.clockText, Iso.places]
  rw [e]
  generalize Iso.digit (hh / 10 ^ 1 % 10) = a at *
  generalize Iso.digit (hh / 10 ^ 0 % 10) = b at *
  unfold Iso.strpDate Iso.scanInt
  rw [List.dropWhile_cons, h1.2.2.1]
  have hc : (':').isDigit = false := by decide
  simp [h1, h2, hc, Iso.scanNat, Iso.scanChar]

theorem nonneg (hh mm ss pp : Nat) (h1 : hh < 24) (h2 : mm < 60) (h3 : ss < 60) (h4 : pp < 100) : 0 ≤ hmsToTime hh mm ss pp := by
  unfold hmsToTime
  rw [if_neg (by omega)]
  omega

/-- C57: the text of a time of day is that time, with hundredths of a second (whatever follows) or without (unless a point follows). -/
theorem C57_time (hh mm ss pp : Nat) (h1 : hh < 24) (h2 : mm < 60) (h3 : ss < 60) (h4 : pp < 100) (t : Str) :
    parse atof (bytes (Iso.clockText hh mm ss ++ ['.'] ++ Iso.places 2 pp) ++ t) = .time (hmsToTime hh mm ss pp) ∧
    (t.head? ≠ some 46#8 → parse atof (bytes (Iso.clockText hh mm ss) ++ t) = .time (hmsToTime hh mm ss 0)) := by
  have hb : ∀ c ∈ Iso.clockText hh mm ss, c.toNat < 256 ∧ c ≠ '-' := by
    intro c hc
    simp only [Iso.clockText, List.mem_append, List.mem_singleton] at hc
    rcases hc with (((hc | rfl) | hc) | rfl) | hc
    · exact ⟨(places_small _ _ c hc).1, (places_small _ _ c hc).2.1⟩
    · decide
    · exact ⟨(places_small _ _ c hc).1, (places_small _ _ c hc).2.1⟩
    · decide
    · exact ⟨(places_small _ _ c hc).1, (places_small _ _ c hc).2.1⟩
  have key : ∀ (u : List Char) (t : Str) (v : Int), (∀ c ∈ Iso.clockText hh mm ss ++ u, c.toNat < 256) →
      Iso.strpTime (Iso.clockText hh mm ss ++ u ++ chars t) = v → 0 ≤ v → parse atof (bytes (Iso.clockText hh mm ss ++ u) ++ t) = .time v := by
    intro u t v hu hv hge
    rw [← chars_bytes _ hu, ← chars_append] at hv
    have hs : ∃ c r, bytes (Iso.clockText hh mm ss ++ u) ++ t = c :: r ∧ Digit c := by
      refine ⟨BitVec.ofNat 8 (Iso.digit (hh / 10 ^ 1 % 10)).toNat, _, rfl, ?_⟩
      have h' := Nat.mod_lt (hh / 10 ^ 1) (by decide : 10 > 0)
      rw [digit_byte h', Digit, BitVec.toNat_ofNat]
      omega
    have hdate : Iso.strpDate (chars (bytes (Iso.clockText hh mm ss ++ u) ++ t)) = -1 := by
      rw [chars_append, chars_bytes _ hu]
      rw [List.append_assoc]
      exact clock_no_date hh mm ss _
    obtain ⟨c, r, e, hc⟩ := hs
    rw [parse_eq, if_neg (by rw [e]; simp), if_neg (not_not.2 ⟨c, r, e, Or.inl hc⟩), if_neg (by rw [hdate]; simp), if_pos, hv]
    exact ⟨by rw [e]; simpa using (digit_ne hc).1, by rw [hv]; exact hge⟩
  constructor
  · have hu : ∀ c ∈ Iso.clockText hh mm ss ++ (['.'] ++ Iso.places 2 pp), c.toNat < 256 := by
      intro c hc
      simp only [List.mem_append, List.mem_singleton] at hc
      rcases hc with hc | rfl | hc
      · exact (hb c hc).1
      · decide
      · exact (places_small _ _ c hc).1
    have := key _ t _ hu rfl
    rw [← List.append_assoc, (Iso.C51_parse_time hh mm ss pp h1 h2 h3 h4 (chars t)).1] at this
    exact this (nonneg _ _ _ _ h1 h2 h3 h4)
  · intro ht
    have hu : ∀ c ∈ Iso.clockText hh mm ss ++ [], c.toNat < 256 := by
      intro c hc
      rw [List.append_nil] at hc
      exact (hb c hc).1
    have := key _ t _ hu rfl
    rw [List.append_nil, (Iso.C51_parse_time hh mm ss pp h1 h2 h3 h4 (chars t)).2 ?_] at this
    · exact this (nonneg hh mm ss 0 h1 h2 h3 (by omega))
    · cases t with
      | nil => simp [chars]
      | cons c t =>
        intro e
        apply ht
        have e2 : Char.ofNat c.toNat = '.' := by simpa [chars] using e
        have := char_nat c
        rw [e2] at this
        rw [List.head?_cons, Option.some.injEq]
        exact BitVec.eq_of_toNat_eq this.symm

end WG.Csv
