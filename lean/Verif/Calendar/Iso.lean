import Verif.Calendar.Props
/-!
# Dates and times as text

Model of wg_strf_iso_datetime, wg_strp_iso_date and wg_strp_iso_time, Db/dbdata.c lines 1765-1807. Text is a list of characters (the 0 at the end is not
shown). The parts of snprintf and sscanf they use are modelled as ISO C describes them (C locale).
-/
namespace WG.Iso
open WG.Spec

/-- The character of a decimal digit. -/
def digit (n : Nat) : Char := Char.ofNat (48 + n)

/-- Decimal digits of a number. -/
def digits (n : Nat) : List Char := if n < 10 then [digit n] else digits (n / 10) ++ [digit (n % 10)]

/-- `%0wd` of printf. -/
def fmt (w : Nat) (x : Int) : List Char :=
  if x < 0 then '-' :: (List.replicate (w - 1 - (digits x.natAbs).length) '0' ++ digits x.natAbs)
  else List.replicate (w - (digits x.natAbs).length) '0' ++ digits x.natAbs

/-- wg_strf_iso_datetime, Db/dbdata.c lines 1765-1781: the text in the buffer of 24 bytes and the result (snprintf returns the untruncated length); `none` for days before 1
(see `dateToYmd`). -/
def strf (date time : Int) : Option (List Char × Int) :=
  match dateToYmd date with
  | none => none
  | some (y, mo, d) =>
    let (h, mi, s, p) := timeToHms time
    let text := fmt 4 y ++ '-' :: fmt 2 mo ++ '-' :: fmt 2 d ++ 'T' :: fmt 2 h ++ ':' :: fmt 2 mi ++ ':' :: fmt 2 s ++ '.' :: fmt 2 p
    some (text.take 23, text.length)

/-- isspace. -/
def isSpace (c : Char) : Bool := c == ' ' || (9 ≤ c.toNat && c.toNat ≤ 13)

/-- At most `w` digits, as a number, and the rest of the text; `none`: no digit. -/
def scanNat : Nat → Option Nat → List Char → Option Nat × List Char
  | 0, acc, t => (acc, t)
  | _ + 1, acc, [] => (acc, [])
  | w + 1, acc, c :: t =>
    if c.isDigit then scanNat w (some (acc.getD 0 * 10 + (c.toNat - 48))) t else (acc, c :: t)

/-- `%wd` of scanf: white space is skipped, a sign counts for the width. -/
def scanInt (w : Nat) (t : List Char) : Option (Int × List Char) :=
  match t.dropWhile isSpace with
  | [] => none
  | c :: t =>
    if c = '-' ∨ c = '+' then match scanNat (w - 1) none t with
      | (none, _) => none
      | (some n, t) => some (if c = '-' then -(n : Int) else n, t)
    else match scanNat w none (c :: t) with
      | (none, _) => none
      | (some n, t) => some ((n : Int), t)

/-- A literal character of the format. -/
def scanChar (c : Char) : List Char → Option (List Char)
  | [] => none
  | d :: t => if d = c then some t else none

/-- wg_strp_iso_date, Db/dbdata.c lines 1783-1794. -/
def strpDate (t : List Char) : Int :=
  match scanInt 4 t with
  | none => -1
  | some (y, t) => match (scanChar '-' t).bind (scanInt 2) with
    | none => -1
    | some (mo, t) => match (scanChar '-' t).bind (scanInt 2) with
      | none => -1
      | some (d, _) => if y < 0 ∨ mo < 1 ∨ mo > 12 ∨ d < 1 ∨ d > 31 then -1 else toInt32 (ymdToScalar y.toNat mo.toNat d.toNat)

/-- wg_strp_iso_time, Db/dbdata.c lines 1797-1807: the fraction may be missing. -/
def strpTime (t : List Char) : Int :=
  match scanInt 2 t with
  | none => -1
  | some (h, t) => match (scanChar ':' t).bind (scanInt 2) with
    | none => -1
    | some (m, t) => match (scanChar ':' t).bind (scanInt 2) with
      | none => -1
      | some (s, t) =>
        let p := match (scanChar '.' t).bind (scanInt 2) with
          | none => 0
          | some (p, _) => p
        if h < 0 ∨ h > 24 ∨ m < 0 ∨ m > 60 ∨ s < 0 ∨ s > 60 ∨ p < 0 ∨ p > 99 then -1
        else h * (60*60*100) + m * (60*100) + s * 100 + p

/-! ## Specification -/

/-- The decimal digits of `n` at the places 10^(w-1), ..., 1. -/
def places : Nat → Nat → List Char
  | 0, _ => []
  | w + 1, n => digit (n / 10 ^ w % 10) :: places w n

/-- YYYY-MM-DD -/
def dateText (y m d : Nat) : List Char := places 4 y ++ ['-'] ++ places 2 m ++ ['-'] ++ places 2 d
/-- HH:MM:SS -/
def clockText (h m s : Nat) : List Char := places 2 h ++ [':'] ++ places 2 m ++ [':'] ++ places 2 s

/-! ## Lemmas -/

theorem digit_isDigit {n : Nat} (h : n < 10) : (digit n).isDigit = true ∧ (digit n).toNat - 48 = n ∧ isSpace (digit n) = false ∧ digit n ≠ '-' ∧ digit n ≠ '+' := by
  have : ∀ n : Fin 10, (digit n).isDigit = true ∧ (digit n).toNat - 48 = n ∧ isSpace (digit n) = false ∧ digit n ≠ '-' ∧ digit n ≠ '+' := by decide
  exact this ⟨n, h⟩

theorem fmt2 {n : Nat} (h : n < 100) : fmt 2 n = places 2 n := by
  unfold fmt
  rw [if_neg (by omega), Int.natAbs_natCast]
  by_cases h1 : n < 10
  · rw [digits, if_pos h1]
    simp [places, Nat.div_eq_of_lt h1, Nat.mod_eq_of_lt h1]
    decide
  · rw [digits, if_neg h1, digits, if_pos (by omega)]
    have a : n / 10 % 10 = n / 10 := by omega
    simp [places, a]

theorem fmt4 {n : Nat} (h : n < 10000) : fmt 4 n = places 4 n := by
  unfold fmt
  rw [if_neg (by omega), Int.natAbs_natCast]
  have z : digit 0 = '0' := by decide
  by_cases h1 : n < 10
  · rw [digits, if_pos h1]
    have a : n / 1000 % 10 = 0 := by omega
    have b : n / 100 % 10 = 0 := by omega
    have c : n / 10 % 10 = 0 := by omega
    have d : n % 10 = n := by omega
    simp [places, a, b, c, d, z, List.replicate]
  by_cases h2 : n < 100
  · rw [digits, if_neg h1, digits, if_pos (by omega)]
    have a : n / 1000 % 10 = 0 := by omega
    have b : n / 100 % 10 = 0 := by omega
    have c : n / 10 % 10 = n / 10 := by omega
    simp [places, a, b, c, z, List.replicate]
  by_cases h3 : n < 1000
  · rw [digits, if_neg h1, digits, if_neg (by omega), digits, if_pos (by omega)]
    have a : n / 1000 % 10 = 0 := by omega
    have b : n / 100 % 10 = n / 10 / 10 := by omega
    simp [places, a, b, z, List.replicate]
  · rw [digits, if_neg h1, digits, if_neg (by omega), digits, if_neg (by omega), digits, if_pos (by omega)]
    have a : n / 1000 % 10 = n / 10 / 10 / 10 := by omega
    have b : n / 100 % 10 = n / 10 / 10 % 10 := by omega
    simp [places, a, b, List.replicate]

theorem scanNat_places (w n : Nat) (acc : Option Nat) (t : List Char) (ha : w ≠ 0 ∨ acc ≠ none) :
    scanNat w acc (places w n ++ t) = (some (acc.getD 0 * 10 ^ w + n % 10 ^ w), t) := by
  induction w generalizing acc with
  | zero =>
    cases acc with
    | none => rcases ha with h | h <;> exact absurd rfl h
    | some a => simp [places, scanNat, Nat.mod_one]
  | succ w ih =>
    obtain ⟨d1, d2, _⟩ := digit_isDigit (n := n / 10 ^ w % 10) (Nat.mod_lt _ (by decide))
    rw [places, List.cons_append, scanNat, if_pos d1, d2, ih _ (Or.inr (by simp))]
    congr 2
    rw [Option.getD_some, Nat.pow_succ, Nat.mod_mul, Nat.add_mul, Nat.mul_assoc, Nat.mul_comm 10]
    rw [Nat.mul_comm (10 ^ w) (n / 10 ^ w % 10)]
    omega

theorem scanInt_places (w n : Nat) (hn : n < 10 ^ (w + 1)) (t : List Char) : scanInt (w + 1) (places (w + 1) n ++ t) = some ((n : Int), t) := by
  obtain ⟨d1, d2, d3, d4, d5⟩ := digit_isDigit (n := n / 10 ^ w % 10) (Nat.mod_lt _ (by decide))
  have h := scanNat_places (w + 1) n none t (Or.inl (by simp))
  unfold scanInt
  rw [places, List.cons_append] at h ⊢
  rw [List.dropWhile_cons, d3]
  simp only [Bool.false_eq_true, if_false]
  rw [if_neg (by rintro (g | g); exact d4 g; exact d5 g), h]
  simp [Nat.mod_eq_of_lt hn]

theorem places_length (w n : Nat) : (places w n).length = w := by
  induction w with
  | zero => rfl
  | succ w ih => rw [places, List.length_cons, ih]

theorem places_inj {w a b : Nat} (ha : a < 10 ^ w) (hb : b < 10 ^ w) (h : places w a = places w b) : a = b := by
  cases w with
  | zero => simp at ha hb; omega
  | succ w =>
    have h1 := scanInt_places w a ha []
    rw [h, scanInt_places w b hb []] at h1
    have h2 : (b : Int) = a := by simpa using h1
    omega

/-! ## C51 -/

/-- A valid day of year, month and day of a day number with a four-digit year. -/
theorem ymd_small {y m d : Nat} (h : ValidDate y m d) : m < 100 ∧ d < 100 := by
  obtain ⟨_, h2, h3, h4, h5⟩ := h
  have : monthLen y m ≤ 31 := by
    unfold monthLen
    split <;> (try split) <;> omega
  omega

/-- C51: a day with year 1 to 9999 and a time of day are written as `YYYY-MM-DDThh:mm:ss.pp`, 22 characters. -/
theorem C51_format (y m d hh mm ss pp : Nat) (hd : ValidDate y m d) (hy : y ≤ 9999) (h1 : hh < 24) (h2 : mm < 60) (h3 : ss < 60) (h4 : pp < 100) :
    strf (ymdToDate y m d) (hmsToTime hh mm ss pp) =
      some (dateText y m d ++ ['T'] ++ clockText hh mm ss ++ ['.'] ++ places 2 pp, 22) := by
  unfold strf
  rw [C04_calendar_roundtrip y m d hd (by omega), C05_time_roundtrip hh mm ss pp (by omega) (by omega) (by omega) (by omega)]
  obtain ⟨hm, hd'⟩ := ymd_small hd
  dsimp only
  rw [fmt4 (by omega), fmt2 hm, fmt2 hd', fmt2 (by omega), fmt2 (by omega), fmt2 (by omega), fmt2 (by omega)]
  have hl : (places 4 y ++ '-' :: places 2 m ++ '-' :: places 2 d ++ 'T' :: places 2 hh ++ ':' :: places 2 mm ++ ':' :: places 2 ss ++ '.' :: places 2 pp).length = 22 := by
    simp [places_length]
  rw [List.take_of_length_le (by omega), hl]
  simp [dateText, clockText, List.append_assoc]

/-- C51: reading a date back: the text of a valid day, followed by anything, gives its number. -/
theorem C51_parse_date (y m d : Nat) (hd : ValidDate y m d) (hy : y ≤ 9999) (t : List Char) : strpDate (dateText y m d ++ t) = ymdToDate y m d := by
  obtain ⟨hm, hd'⟩ := ymd_small hd
  unfold strpDate dateText
  rw [List.append_assoc, List.append_assoc, List.append_assoc, List.append_assoc, scanInt_places 3 y (by omega)]
  simp only [List.cons_append, List.nil_append, scanChar, if_true, Option.bind_some]
  rw [scanInt_places 1 m (by omega)]
  simp only [scanChar, if_true, Option.bind_some]
  rw [scanInt_places 1 d (by omega)]
  rfl

/-- C51: reading a time back, with and without the hundredths. -/
theorem C51_parse_time (hh mm ss pp : Nat) (h1 : hh < 24) (h2 : mm < 60) (h3 : ss < 60) (h4 : pp < 100) (t : List Char) :
    strpTime (clockText hh mm ss ++ ['.'] ++ places 2 pp ++ t) = hmsToTime hh mm ss pp ∧
    (t.head? ≠ some '.' → strpTime (clockText hh mm ss ++ t) = hmsToTime hh mm ss 0) := by
  unfold strpTime clockText
  constructor
  · rw [List.append_assoc, List.append_assoc, List.append_assoc, List.append_assoc, List.append_assoc, List.append_assoc, scanInt_places 1 hh (by omega)]
    simp only [List.cons_append, List.nil_append, scanChar, if_true, Option.bind_some]
    rw [scanInt_places 1 mm (by omega)]
    simp only [scanChar, if_true, Option.bind_some]
    rw [scanInt_places 1 ss (by omega)]
    simp only [scanChar, if_true, Option.bind_some]
    rw [scanInt_places 1 pp (by omega)]
    rfl
  · intro ht
    have e : scanChar '.' t = none := by
      cases t with
      | nil => rfl
      | cons c t => exact if_neg (fun e => ht (by rw [e]; rfl))
    have sc : ∀ t, scanChar ':' (':' :: t) = some t := fun t => rfl
    rw [List.append_assoc, List.append_assoc, List.append_assoc, List.append_assoc, scanInt_places 1 hh (by omega)]
    simp only [List.cons_append, List.nil_append, sc, Option.bind_some]
    rw [scanInt_places 1 mm (by omega)]
    simp only [sc, Option.bind_some]
    rw [scanInt_places 1 ss (by omega)]
    simp only [e, Option.bind_none]
    rfl

/-- Every day number up to 9999-12-31 has a year, month and day. -/
theorem split_date (n : Int) (h1 : 1 ≤ n) (h2 : n ≤ 3652059) : ∃ y m d : Nat, ValidDate y m d ∧ y ≤ 9999 ∧ ymdToDate y m d = n := by
  obtain ⟨y, m, d, hv, he, hs⟩ := C04_inverse n.toNat (by omega)
  have hy : y ≤ 9999 := by
    obtain ⟨g1, g2, g3, g4, g5⟩ := hv
    by_cases hc : y ≤ 9999
    · exact hc
    · exfalso
      unfold ymdToScalar yearsToDays monthsToDays at hs
      dsimp only at hs
      split at hs <;> split at hs <;> (try split at hs) <;> omega
  refine ⟨y, m, d, hv, hy, ?_⟩
  rw [ymdToDate_valid y m d hv (by omega), hs]
  omega

/-- Every time of day has hours, minutes, seconds and hundredths. -/
theorem split_time (n : Int) (h1 : 0 ≤ n) (h2 : n < 8640000) : ∃ h m s p : Nat, h < 24 ∧ m < 60 ∧ s < 60 ∧ p < 100 ∧ hmsToTime h m s p = n := by
  refine ⟨n.toNat / 360000, n.toNat / 6000 % 60, n.toNat / 100 % 60, n.toNat % 100, by omega, by omega, by omega, by omega, ?_⟩
  unfold hmsToTime
  rw [if_neg (by omega)]
  omega

/-- C51: what was formatted is read back by both parsers, for every day up to 9999-12-31 and every time of day: the date from the start of the text, the time from character 11. The text
takes 22 of the 24 bytes of the buffer. -/
theorem C51_roundtrip (date time : Int) (hd1 : 1 ≤ date) (hd2 : date ≤ 3652059) (ht1 : 0 ≤ time) (ht2 : time < 8640000) :
    ∃ text, strf date time = some (text, 22) ∧ text.length = 22 ∧ strpDate text = date ∧ strpTime (text.drop 11) = time := by
  obtain ⟨y, m, d, hd, hy, rfl⟩ := split_date date hd1 hd2
  obtain ⟨hh, mm, ss, pp, h1, h2, h3, h4, rfl⟩ := split_time time ht1 ht2
  refine ⟨_, C51_format y m d hh mm ss pp hd hy h1 h2 h3 h4, ?_, ?_, ?_⟩
  · simp [dateText, clockText, places_length]
  · rw [List.append_assoc, List.append_assoc, List.append_assoc]
    exact C51_parse_date y m d hd hy _
  · have e : (dateText y m d ++ ['T'] ++ clockText hh mm ss ++ ['.'] ++ places 2 pp).drop 11 = clockText hh mm ss ++ ['.'] ++ places 2 pp ++ [] := by
      rw [List.append_assoc, List.append_assoc, List.drop_left' (by simp [dateText, places_length])]
      simp
    rw [e]
    exact (C51_parse_time hh mm ss pp h1 h2 h3 h4 []).1

/-- C51: different days and times have different texts. -/
theorem C51_injective (date time date' time' : Int) (hd1 : 1 ≤ date) (hd2 : date ≤ 3652059) (ht1 : 0 ≤ time) (ht2 : time < 8640000)
    (hd1' : 1 ≤ date') (hd2' : date' ≤ 3652059) (ht1' : 0 ≤ time') (ht2' : time' < 8640000) (h : strf date time = strf date' time') :
    date = date' ∧ time = time' := by
  obtain ⟨t, e, _, a, b⟩ := C51_roundtrip date time hd1 hd2 ht1 ht2
  obtain ⟨t', e', _, a', b'⟩ := C51_roundtrip date' time' hd1' hd2' ht1' ht2'
  rw [e, e'] at h
  have ht : t = t' := by simpa using h
  subst ht
  exact ⟨a.symm.trans a', b.symm.trans b'⟩

/-- C51: whatever the day and time, the text with its end mark fits the 24 bytes. -/
theorem C51_fits (date time : Int) (text : List Char) (n : Int) (h : strf date time = some (text, n)) : text.length + 1 ≤ 24 := by
  unfold strf at h
  split at h
  · exact absurd h (by simp)
  · dsimp only at h
    rw [Option.some.injEq, Prod.mk.injEq] at h
    rw [← h.1, List.length_take]
    omega

theorem scanNat_bound (w : Nat) (acc : Option Nat) (t : List Char) (n : Nat) (r : List Char) (h : scanNat w acc t = (some n, r)) :
    n < (acc.getD 0 + 1) * 10 ^ w := by
  induction w generalizing acc t with
  | zero =>
    unfold scanNat at h
    rw [Prod.mk.injEq] at h
    rw [h.1, Option.getD_some]; omega
  | succ w ih =>
    have hp : 0 < 10 ^ w := Nat.pow_pos (by decide)
    have base : acc = some n → n < (acc.getD 0 + 1) * 10 ^ (w + 1) := by
      rintro rfl
      have : 1 ≤ 10 ^ (w + 1) := Nat.pow_pos (by decide)
      calc n < n + 1 := by omega
        _ = (n + 1) * 1 := by omega
        _ ≤ _ := Nat.mul_le_mul_left _ this
    cases t with
    | nil => exact base (by simpa [scanNat] using (congrArg Prod.fst h))
    | cons c t =>
      unfold scanNat at h
      by_cases hc : c.isDigit = true
      · rw [if_pos hc] at h
        have g := ih _ _ h
        rw [Option.getD_some] at g
        have hd : c.toNat - 48 ≤ 9 := by
          simp only [Char.isDigit, Bool.and_eq_true, decide_eq_true_eq] at hc
          have h2 := hc.2
          have : c.toNat ≤ 57 := h2
          omega
        refine Nat.lt_of_lt_of_le g ?_
        rw [Nat.pow_succ, Nat.mul_comm (10 ^ w) 10, ← Nat.mul_assoc]
        exact Nat.mul_le_mul_right _ (by omega)
      · rw [if_neg hc] at h
        exact base (congrArg Prod.fst h)

theorem scanInt_bound (w : Nat) (t : List Char) (n : Int) (r : List Char) (h : scanInt w t = some (n, r)) : n < 10 ^ w := by
  unfold scanInt at h
  split at h
  · exact absurd h (by simp)
  · rename_i c t' _
    split at h
    · split at h
      · exact absurd h (by simp)
      · rename_i k t2 hk
        have g := scanNat_bound _ _ _ _ _ hk
        rw [Option.some.injEq, Prod.mk.injEq] at h
        have hp : 10 ^ (w - 1) ≤ 10 ^ w := Nat.pow_le_pow_right (by decide) (by omega)
        have g2 : (k : Int) < ((10 ^ w : Nat) : Int) := by
          simp only [Option.getD_none, Nat.zero_add, Nat.one_mul] at g
          omega
        have g3 : ((10 ^ w : Nat) : Int) = 10 ^ w := by simp
        rw [g3] at g2
        split at h <;> omega
    · split at h
      · exact absurd h (by simp)
      · rename_i k t2 hk
        have g := scanNat_bound _ _ _ _ _ hk
        rw [Option.some.injEq, Prod.mk.injEq] at h
        have g2 : (k : Int) < ((10 ^ w : Nat) : Int) := by
          simp only [Option.getD_none, Nat.zero_add, Nat.one_mul] at g
          omega
        have g3 : ((10 ^ w : Nat) : Int) = 10 ^ w := by simp
        rw [g3] at g2
        omega

/-- C51: for any text at all, the parsers return -1 or the number that the corresponding conversion function gives for fields within its limits. -/
theorem C51_any_text (t : List Char) :
    (strpDate t = -1 ∨ ∃ y m d : Int, 0 ≤ y ∧ y ≤ 9999 ∧ 1 ≤ m ∧ m ≤ 12 ∧ 1 ≤ d ∧ d ≤ 31 ∧ strpDate t = ymdToDate y m d) ∧
    (strpTime t = -1 ∨ ∃ h m s p : Int, 0 ≤ h ∧ h ≤ 24 ∧ 0 ≤ m ∧ m ≤ 60 ∧ 0 ≤ s ∧ s ≤ 60 ∧ 0 ≤ p ∧ p ≤ 99 ∧ strpTime t = hmsToTime h m s p) := by
  constructor
  · unfold strpDate
    split
    · exact Or.inl rfl
    · rename_i y t1 hy
      split
      · exact Or.inl rfl
      · rename_i m t2 _
        split
        · exact Or.inl rfl
        · rename_i d t3 _
          split
          · exact Or.inl rfl
          · rename_i hc
            have := scanInt_bound _ _ _ _ hy
            refine Or.inr ⟨y, m, d, by omega, by omega, by omega, by omega, by omega, by omega, ?_⟩
            unfold ymdToDate
            rw [if_neg hc]
  · unfold strpTime
    split
    · exact Or.inl rfl
    · rename_i h t1 _
      split
      · exact Or.inl rfl
      · rename_i m t2 _
        split
        · exact Or.inl rfl
        · rename_i s t3 _
          dsimp only
          generalize (match (scanChar '.' t3).bind (scanInt 2) with
            | none => (0 : Int)
            | some (p, _) => p) = p
          by_cases hc : h < 0 ∨ h > 24 ∨ m < 0 ∨ m > 60 ∨ s < 0 ∨ s > 60 ∨ p < 0 ∨ p > 99
          · rw [if_pos hc]; exact Or.inl rfl
          · refine Or.inr ⟨h, m, s, p, by omega, by omega, by omega, by omega, by omega, by omega, by omega, by omega, ?_⟩
            unfold hmsToTime
            rw [if_neg hc]

/-- A concrete day and time. -/
example : strf 738886 1234567 = some ("2024-01-01T03:25:45.67".toList, 22) := by decide +kernel
example : strpDate "2024-02-29T03:25:45.67".toList = 738945 ∧ strpTime "03:25:45.67".toList = 1234567 ∧ strpTime "03:25:45".toList = 1234500 := by decide +kernel
example : strpDate "2024/02/29".toList = -1 ∧ strpDate "2024-13-01".toList = -1 ∧ strpTime "0325".toList = -1 := by decide +kernel

/-- Known deviation: the text of a day after 9999-12-31 cannot be read back, and from year 100000 on it is cut. -/
theorem C51_year10000_counterexample : (strf 3652060 0).map (fun r => strpDate r.1) = some (-1) ∧
    strf 40000000 0 = some ("109517-04-13T00:00:00.0".toList, 24) := by decide +kernel

/-- Known deviation: a fraction with one digit is read as hundredths: half a second is taken for five hundredths. -/
theorem C51_fraction_counterexample : strpTime "12:00:00.5".toList = strpTime "12:00:00.05".toList := by decide +kernel

end WG.Iso

