import Verif.Calendar.Model
import Verif.Calendar.Spec
import Mathlib.Tactic.SplitIfs
/-! Properties C04 and C05: calendar and time of day conversions. -/
namespace WG
open Spec

theorem isleap_iff (y : Nat) : isleap y = true ↔ leap y := by
  unfold isleap leap
  simp only [Bool.or_eq_true, Bool.and_eq_true, beq_iff_eq, bne_iff_ne, ne_eq]
  omega

theorem years_mono {a b : Nat} (h : a ≤ b) : yearsToDays a ≤ yearsToDays b := by
  induction h with
  | refl => exact Nat.le_refl _
  | step _ ih => exact Nat.le_trans ih (Nat.le_trans (Nat.le_add_right _ _) (yearsToDays_succ _))

theorem yearLoop_eq (s y : Nat) (h1 : yearsToDays (y-1) < s) (h2 : s ≤ yearsToDays y) (hy : 1 ≤ y)
    (n : Nat) (hn : n ≤ y) : yearLoop s n = y := by
  induction hk : y - n generalizing n with
  | zero =>
    have : n = y := by omega
    subst this
    unfold yearLoop; simp; omega
  | succ k ih =>
    unfold yearLoop
    have hlt : yearsToDays n < s := by
      have : n ≤ y - 1 := by omega
      have hm : yearsToDays n ≤ yearsToDays (y-1) := years_mono this
      omega
    simp only [hlt, if_true]
    exact ih (n+1) (by omega) (by omega)

/-- Days before month `m` plus the year part; the value of `ymdToScalar` for `yr ≥ 1`. -/
theorem scalar_split (y m d : Nat) (h : ValidDate y m d) :
    ∃ doy : Nat, 1 ≤ doy ∧ doy ≤ 365 + (if isleap y then 1 else 0) ∧
      ymdToScalar y m d = (yearsToDays (y-1) + doy : Nat) ∧
      (let n := if doy > 59 then
          (if isleap y then (doy + 2) - (if doy + 2 > 62 then 1 else 2) else doy + 2) else doy
       (n * 100 + 3007) / 3057 = m ∧ n - monthsToDays m = d) := by
  obtain ⟨hy, hm1, hm2, hd1, hd2⟩ := h
  unfold monthLen at hd2
  have hl := isleap_iff y
  have hy0 : ¬ y = 0 := by omega
  have hm : m = 1 ∨ m = 2 ∨ m = 3 ∨ m = 4 ∨ m = 5 ∨ m = 6 ∨ m = 7 ∨ m = 8 ∨ m = 9 ∨ m = 10 ∨ m = 11 ∨ m = 12 := by
    omega
  have t1 : monthsToDays 1 = 0 := rfl
  have t2 : monthsToDays 2 = 31 := rfl
  have t3 : monthsToDays 3 = 61 := rfl
  have t4 : monthsToDays 4 = 92 := rfl
  have t5 : monthsToDays 5 = 122 := rfl
  have t6 : monthsToDays 6 = 153 := rfl
  have t7 : monthsToDays 7 = 183 := rfl
  have t8 : monthsToDays 8 = 214 := rfl
  have t9 : monthsToDays 9 = 245 := rfl
  have t10 : monthsToDays 10 = 275 := rfl
  have t11 : monthsToDays 11 = 306 := rfl
  have t12 : monthsToDays 12 = 336 := rfl
  by_cases h : leap y
  · have hb : isleap y = true := hl.2 h
    refine ⟨d + monthsToDays m - (if m > 2 then 1 else 0), ?_⟩
    simp only [ymdToScalar, hb, hy0, if_true, if_false, h] at hd2 ⊢
    rcases hm with rfl|rfl|rfl|rfl|rfl|rfl|rfl|rfl|rfl|rfl|rfl|rfl <;>
    simp only [t1, t2, t3, t4, t5, t6, t7, t8, t9, t10, t11, t12] <;> simp at hd2 <;>
    refine ⟨?_, ?_, ?_, ?_, ?_⟩ <;> (try split_ifs) <;> omega
  · have hb : isleap y = false := by
      cases hh : isleap y
      · rfl
      · exact absurd (hl.1 hh) h
    refine ⟨d + monthsToDays m - (if m > 2 then 2 else 0), ?_⟩
    simp only [ymdToScalar, hb, hy0, Bool.false_eq_true, if_false, h] at hd2 ⊢
    rcases hm with rfl|rfl|rfl|rfl|rfl|rfl|rfl|rfl|rfl|rfl|rfl|rfl <;>
    simp only [t1, t2, t3, t4, t5, t6, t7, t8, t9, t10, t11, t12] <;> simp at hd2 <;>
    refine ⟨?_, ?_, ?_, ?_, ?_⟩ <;> (try split_ifs) <;> omega

theorem years_step (y : Nat) (hy : 1 ≤ y) :
    yearsToDays y = yearsToDays (y-1) + 365 + (if isleap y then 1 else 0) := by
  obtain ⟨k, rfl⟩ : ∃ k, y = k + 1 := ⟨y - 1, by omega⟩
  simp only [Nat.add_sub_cancel]
  have d4 : (k+1)/4 = k/4 + (if (k+1) % 4 = 0 then 1 else 0) := by split <;> omega
  have d100 : (k+1)/100 = k/100 + (if (k+1) % 100 = 0 then 1 else 0) := by split <;> omega
  have d400 : (k+1)/400 = k/400 + (if (k+1) % 400 = 0 then 1 else 0) := by split <;> omega
  have i1 : (k+1) % 400 = 0 → (k+1) % 100 = 0 := by omega
  have i2 : (k+1) % 100 = 0 → (k+1) % 4 = 0 := by omega
  have i3 : k/100 ≤ k/4 := by omega
  have hl : isleap (k+1) = true ↔ ((k+1) % 400 = 0 ∨ ((k+1) % 4 = 0 ∧ ¬ (k+1) % 100 = 0)) := by
    unfold isleap; simp
  unfold yearsToDays
  rw [d4, d100, d400]
  clear d4 d100 d400
  generalize k/4 = a at *
  generalize k/100 = b at *
  generalize k/400 = c at *
  split_ifs <;> simp_all <;> omega

theorem start_le (s y : Nat) (h2 : s ≤ yearsToDays y) : s * 400 / 146097 ≤ y := by
  unfold yearsToDays at h2; omega

theorem scalar_roundtrip (y m d : Nat) (h : ValidDate y m d) :
    ∃ s : Nat, 1 ≤ s ∧ ymdToScalar y m d = (s : Int) ∧ s ≤ yearsToDays y ∧ scalarToYmd s = (y, m, d) := by
  obtain ⟨doy, hd1, hd2, hs, hmd⟩ := scalar_split y m d h
  have hy := h.1
  have hst := years_step y hy
  refine ⟨yearsToDays (y-1) + doy, by omega, hs, by omega, ?_⟩
  have hloop := yearLoop_eq (yearsToDays (y-1) + doy) y (by omega) (by omega) hy _
    (start_le (yearsToDays (y-1) + doy) y (by omega))
  unfold scalarToYmd
  rw [hloop]
  have he : yearsToDays (y-1) + doy - yearsToDays (y-1) = doy := by omega
  simp only [he]
  simp only at hmd
  generalize (if doy > 59 then
          (if isleap y then (doy + 2) - (if doy + 2 > 62 then 1 else 2) else doy + 2) else doy) = n at *
  obtain ⟨e1, e2⟩ := hmd
  rw [e1, e2]

/-- Day numbers fit a C `int` up to year 5879610. -/
theorem years_int (y : Nat) (hy : y ≤ 5879610) : yearsToDays y < 2147483648 := by
  unfold yearsToDays; omega

theorem ymdToDate_valid (y m d : Nat) (h : ValidDate y m d) (hy : y ≤ 5879610) :
    ymdToDate y m d = ymdToScalar y m d := by
  obtain ⟨s, h1, h2, h3, _⟩ := scalar_roundtrip y m d h
  have hb := years_int y hy
  obtain ⟨hy1, hm1, hm2, hd1, hd2⟩ := h
  have hd : d ≤ 31 := by
    have : monthLen y m ≤ 31 := by unfold monthLen; split_ifs <;> omega
    omega
  unfold ymdToDate
  rw [if_neg (by omega)]
  simp only [Int.toNat_natCast]
  rw [h2]; unfold toInt32; omega

/-- C04: every valid calendar date (year 1 up to the last year whose day numbers fit an `int`) survives
the conversion to a day number and back. -/
theorem C04_calendar_roundtrip (y m d : Nat) (h : ValidDate y m d) (hy : y ≤ 5879610) :
    dateToYmd (ymdToDate y m d) = some ((y : Int), (m : Int), (d : Int)) := by
  rw [ymdToDate_valid y m d h hy]
  obtain ⟨s, h1, h2, h3, h4⟩ := scalar_roundtrip y m d h
  rw [h2]; unfold dateToYmd
  rw [if_neg (by omega)]
  simp only [Int.toNat_natCast, h4]

/-- C04: day 1 is 1 January of year 1, and consecutive days get consecutive numbers. Together these fix
the day number of every date. -/
theorem C04_consecutive (y m d : Nat) (h : ValidDate y m d) (hy : y + 1 ≤ 5879610) :
    ymdToDate 1 1 1 = 1 ∧
    ymdToDate (nextDay y m d).1 (nextDay y m d).2.1 (nextDay y m d).2.2 = ymdToDate y m d + 1 ∧
    ValidDate (nextDay y m d).1 (nextDay y m d).2.1 (nextDay y m d).2.2 := by
  have hl := isleap_iff y
  have hstep := years_step y h.1
  have hv : ValidDate (nextDay y m d).1 (nextDay y m d).2.1 (nextDay y m d).2.2 := by
    obtain ⟨hy1, hm1, hm2, hd1, hd2⟩ := h
    have hmin : ∀ y m, 28 ≤ monthLen y m := by
      intro y m; unfold monthLen; split_ifs <;> omega
    unfold nextDay
    split
    · exact ⟨hy1, hm1, hm2, by simp, by simp only; omega⟩
    · split
      · refine ⟨hy1, by simp, by simp only; omega, by simp, ?_⟩
        have := hmin y (m+1)
        simp only; omega
      · refine ⟨by simp, by simp, by simp, by simp, ?_⟩
        have := hmin (y+1) 1
        simp only; omega
  refine ⟨by decide, ?_, hv⟩
  have hy' : (nextDay y m d).1 ≤ 5879610 := by
    unfold nextDay; split_ifs <;> simp only <;> omega
  rw [ymdToDate_valid y m d h (by omega), ymdToDate_valid _ _ _ hv hy']
  obtain ⟨hy1, hm1, hm2, hd1, hd2⟩ := h
  have hm : m = 1 ∨ m = 2 ∨ m = 3 ∨ m = 4 ∨ m = 5 ∨ m = 6 ∨ m = 7 ∨ m = 8 ∨ m = 9 ∨ m = 10 ∨ m = 11 ∨ m = 12 := by
    omega
  have hy0 : ¬ y = 0 := by omega
  unfold nextDay
  by_cases hlt : d < monthLen y m
  · simp only [hlt, if_true, ymdToScalar]
    push_cast; omega
  · have hd : d = monthLen y m := by omega
    subst hd
    simp only [Nat.lt_irrefl, if_false]
    by_cases hleap : leap y
    · have hb : isleap y = true := hl.2 hleap
      simp only [hb, if_true] at hstep
      rcases hm with rfl|rfl|rfl|rfl|rfl|rfl|rfl|rfl|rfl|rfl|rfl|rfl <;>
      simp [ymdToScalar, hb, hy0, monthsToDays, monthLen, hleap] <;> omega
    · have hb : isleap y = false := by
        cases hh : isleap y
        · rfl
        · exact absurd (hl.1 hh) hleap
      simp only [hb] at hstep
      rcases hm with rfl|rfl|rfl|rfl|rfl|rfl|rfl|rfl|rfl|rfl|rfl|rfl <;>
      simp [ymdToScalar, hb, hy0, monthsToDays, monthLen, hleap] <;> simp at hstep <;> omega

/-- C04: the order of day numbers is the calendar order. -/
theorem C04_order (y m d y' m' d' : Nat) (h : ValidDate y m d) (h' : ValidDate y' m' d')
    (hy : y ≤ 5879610) (hy' : y' ≤ 5879610) :
    ymdToDate y m d < ymdToDate y' m' d' ↔ dateLt (y, m, d) (y', m', d') := by
  rw [ymdToDate_valid y m d h hy, ymdToDate_valid _ _ _ h' hy']
  have mono : ∀ y m d y' m' d' : Nat, ValidDate y m d → ValidDate y' m' d' →
      dateLt (y, m, d) (y', m', d') → ymdToScalar y m d < ymdToScalar y' m' d' := by
    intro y m d y' m' d' h h' hlt
    unfold dateLt at hlt
    simp only at hlt
    by_cases hyy : y = y'
    · subst hyy
      obtain ⟨hy1, hm1, hm2, hd1, hd2⟩ := h
      obtain ⟨hy1', hm1', hm2', hd1', hd2'⟩ := h'
      have hml : ∀ m, monthLen y m ≤ 31 := by
        intro m; unfold monthLen; split_ifs <;> omega
      have hm31 := hml m
      by_cases hmm : m = m'
      · subst hmm
        have : d < d' := by omega
        unfold ymdToScalar; simp only; split <;> omega
      · have hmlt : m < m' := by omega
        have key : (d : Int) + (monthsToDays m : Int) - (if m > 2 then (if isleap y then 1 else 2) else 0) <
            (d' : Int) + (monthsToDays m' : Int) - (if m' > 2 then (if isleap y then 1 else 2) else 0) := by
          have hl := isleap_iff y
          have hm : m = 1 ∨ m = 2 ∨ m = 3 ∨ m = 4 ∨ m = 5 ∨ m = 6 ∨ m = 7 ∨ m = 8 ∨ m = 9 ∨ m = 10 ∨ m = 11 ∨ m = 12 := by
            omega
          unfold monthLen at hd2
          by_cases hleap : leap y
          · have hb : isleap y = true := hl.2 hleap
            simp only [hleap, hb, if_true] at hd2 ⊢
            rcases hm with rfl|rfl|rfl|rfl|rfl|rfl|rfl|rfl|rfl|rfl|rfl|rfl <;> simp at hd2 ⊢ <;>
              unfold monthsToDays <;> (try split) <;> omega
          · have hb : isleap y = false := by
              cases hh : isleap y
              · rfl
              · exact absurd (hl.1 hh) hleap
            simp only [hleap, hb] at hd2 ⊢
            rcases hm with rfl|rfl|rfl|rfl|rfl|rfl|rfl|rfl|rfl|rfl|rfl|rfl <;> simp at hd2 ⊢ <;>
              unfold monthsToDays <;> (try split) <;> omega
        unfold ymdToScalar; simp only
        revert key
        split <;> split <;> intro key <;> omega
    · have hylt : y < y' := by omega
      obtain ⟨s, h1, h2, h3, _⟩ := scalar_roundtrip y m d h
      obtain ⟨doy, k1, k2, k3, _⟩ := scalar_split y' m' d' h'
      rw [h2, k3]
      have hmono : yearsToDays y ≤ yearsToDays (y'-1) := years_mono (by omega)
      omega
  constructor
  · intro hlt
    by_cases hc : dateLt (y, m, d) (y', m', d')
    · exact hc
    · exfalso
      by_cases he : y = y' ∧ m = m' ∧ d = d'
      · obtain ⟨rfl, rfl, rfl⟩ := he; omega
      · have : dateLt (y', m', d') (y, m, d) := by
          unfold dateLt at *; simp only at *; omega
        have := mono _ _ _ _ _ _ h' h this
        omega
  · exact mono _ _ _ _ _ _ h h'

/-- C04: every day number from 1 on is the number of a valid date, the one `wg_date_to_ymd` returns. -/
theorem C04_inverse (n : Nat) (hn : 1 ≤ n) :
    ∃ y m d : Nat, ValidDate y m d ∧ dateToYmd n = some ((y : Int), (m : Int), (d : Int)) ∧
      ymdToScalar y m d = n := by
  have key : ∃ y m d : Nat, ValidDate y m d ∧ ymdToScalar y m d = n := by
    induction n with
    | zero => omega
    | succ k ih =>
      by_cases hk : k = 0
      · subst hk
        exact ⟨1, 1, 1, by unfold ValidDate monthLen; simp, by decide⟩
      · obtain ⟨y, m, d, hv, he⟩ := ih (by omega)
        refine ⟨(nextDay y m d).1, (nextDay y m d).2.1, (nextDay y m d).2.2, ?_⟩
        have hl := isleap_iff y
        have hstep := years_step y hv.1
        obtain ⟨hy1, hm1, hm2, hd1, hd2⟩ := hv
        have hmin : ∀ y m, 28 ≤ monthLen y m := by
          intro y m; unfold monthLen; split_ifs <;> omega
        constructor
        · unfold nextDay
          split
          · exact ⟨hy1, hm1, hm2, by simp, by simp only; omega⟩
          · split
            · refine ⟨hy1, by simp, by simp only; omega, by simp, ?_⟩
              have := hmin y (m+1)
              simp only; omega
            · refine ⟨by simp, by simp, by simp, by simp, ?_⟩
              have := hmin (y+1) 1
              simp only; omega
        · have hm : m = 1 ∨ m = 2 ∨ m = 3 ∨ m = 4 ∨ m = 5 ∨ m = 6 ∨ m = 7 ∨ m = 8 ∨ m = 9 ∨ m = 10 ∨ m = 11 ∨ m = 12 := by
            omega
          have hy0 : ¬ y = 0 := by omega
          rw [show ((k+1 : Nat) : Int) = (k : Int) + 1 by omega, ← he]
          unfold nextDay
          by_cases hlt : d < monthLen y m
          · simp only [hlt, if_true, ymdToScalar]
            push_cast; omega
          · have hd : d = monthLen y m := by omega
            subst hd
            simp only [Nat.lt_irrefl, if_false]
            by_cases hleap : leap y
            · have hb : isleap y = true := hl.2 hleap
              simp only [hb, if_true] at hstep
              rcases hm with rfl|rfl|rfl|rfl|rfl|rfl|rfl|rfl|rfl|rfl|rfl|rfl <;>
              simp [ymdToScalar, hb, hy0, monthsToDays, monthLen, hleap] <;> omega
            · have hb : isleap y = false := by
                cases hh : isleap y
                · rfl
                · exact absurd (hl.1 hh) hleap
              simp only [hb] at hstep
              rcases hm with rfl|rfl|rfl|rfl|rfl|rfl|rfl|rfl|rfl|rfl|rfl|rfl <;>
              simp [ymdToScalar, hb, hy0, monthsToDays, monthLen, hleap] <;> simp at hstep <;> omega
  obtain ⟨y, m, d, hv, he⟩ := key
  refine ⟨y, m, d, hv, ?_, he⟩
  obtain ⟨s, h1, h2, h3, h4⟩ := scalar_roundtrip y m d hv
  have : s = n := by rw [he] at h2; omega
  subst this
  unfold dateToYmd
  rw [if_neg (by omega)]
  simp only [Int.toNat_natCast, h4]

/-- C04: out-of-range month, day or a negative year is refused (result -1, never a day number). -/
theorem C04_refused (y m d : Int) (h : y < 0 ∨ m < 1 ∨ m > 12 ∨ d < 1 ∨ d > 31) : ymdToDate y m d = -1 := by
  unfold ymdToDate; rw [if_pos h]

/-- Known deviation: the check accepts day 31 in every month, so an impossible date is not refused but
taken for a day of the next month. -/
theorem C04_feb30_counterexample : ymdToDate 2023 2 30 = ymdToDate 2023 3 2 := by decide

example : ValidDate 2000 2 29 := by unfold ValidDate monthLen leap; decide
example : dateToYmd (ymdToDate 2000 2 29) = some (2000, 2, 29) :=
  C04_calendar_roundtrip 2000 2 29 (by unfold ValidDate monthLen leap; decide) (by decide)

/-! ## C05 -/

/-- C05: every valid time of day survives the conversion to a number and back. -/
theorem C05_time_roundtrip (h m s f : Int) (hh : 0 ≤ h ∧ h ≤ 23) (hm : 0 ≤ m ∧ m ≤ 59)
    (hs : 0 ≤ s ∧ s ≤ 59) (hf : 0 ≤ f ∧ f ≤ 99) :
    timeToHms (hmsToTime h m s f) = (h, m, s, f) := by
  unfold hmsToTime
  rw [if_neg (by omega)]
  unfold timeToHms
  simp only [Int.tdiv_eq_ediv]
  have e1 : (h * (60*60*100) + m * (60*100) + s * 100 + f) / (60*60*100) = h := by omega
  have p1 : 0 ≤ h * (60*60*100) + m * (60*100) + s * 100 + f := by omega
  simp only [p1, true_or, if_true, Int.add_zero, e1]
  have e2 : h * (60*60*100) + m * (60*100) + s * 100 + f - h * (60*60*100) = m * (60*100) + s*100 + f := by omega
  have p2 : 0 ≤ m * (60*100) + s*100 + f := by omega
  have e3 : (m * (60*100) + s*100 + f) / (60*100) = m := by omega
  simp only [e2, p2, true_or, if_true, Int.add_zero, e3]
  have e4 : m * (60*100) + s*100 + f - m * (60*100) = s*100 + f := by omega
  have p3 : 0 ≤ s*100+f := by omega
  have e5 : (s*100+f) / 100 = s := by omega
  simp only [e4, p3, true_or, if_true, Int.add_zero, e5]
  have e6 : s * 100 + f - s * 100 = f := by omega
  rw [e6]

/-- C05: the conversion is strictly monotone in the lexicographic order of valid times. -/
theorem C05_time_order (h m s f h' m' s' f' : Int) (hh : 0 ≤ h ∧ h ≤ 23) (hm : 0 ≤ m ∧ m ≤ 59)
    (hs : 0 ≤ s ∧ s ≤ 59) (hf : 0 ≤ f ∧ f ≤ 99) (hh' : 0 ≤ h' ∧ h' ≤ 23) (hm' : 0 ≤ m' ∧ m' ≤ 59)
    (hs' : 0 ≤ s' ∧ s' ≤ 59) (hf' : 0 ≤ f' ∧ f' ≤ 99) :
    hmsToTime h m s f < hmsToTime h' m' s' f' ↔
      (h < h' ∨ (h = h' ∧ (m < m' ∨ (m = m' ∧ (s < s' ∨ (s = s' ∧ f < f')))))) := by
  unfold hmsToTime
  rw [if_neg (by omega), if_neg (by omega)]
  omega

/-- C05: exactly the quadruples with a field outside 0..24, 0..60, 0..60, 0..99 are refused, and no
accepted quadruple overflows a C `int`. -/
theorem C05_refused (h m s f : Int) :
    (hmsToTime h m s f = -1 ↔ ¬ (0 ≤ h ∧ h ≤ 24 ∧ 0 ≤ m ∧ m ≤ 60 ∧ 0 ≤ s ∧ s ≤ 60 ∧ 0 ≤ f ∧ f ≤ 99)) ∧
    -1 ≤ hmsToTime h m s f ∧ hmsToTime h m s f < 2^31 := by
  unfold hmsToTime
  split <;> omega

/-- Known deviation: minute (and second) 60 is accepted, and is then indistinguishable from the next hour. -/
theorem C05_minute60_counterexample : hmsToTime 1 60 0 0 = hmsToTime 2 0 0 0 := by decide

example : timeToHms (hmsToTime 23 59 59 99) = (23, 59, 59, 99) :=
  C05_time_roundtrip _ _ _ _ (by decide) (by decide) (by decide) (by decide)

end WG
