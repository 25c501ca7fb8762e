import Verif.Csv.Spec
import Mathlib.Tactic.Ring
/-! # Lemmas about the recognition of text values -/
namespace WG.Csv
open Spec

theorem isDig_iff {c : Byte} : isDig c = true ↔ Digit c := by simp [isDig, Digit]

theorem char_nat : ∀ c : Byte, (Char.ofNat c.toNat).toNat = c.toNat := by decide +kernel

theorem char_ne {c : Byte} {d : Char} (h : c.toNat ≠ d.toNat) : Char.ofNat c.toNat ≠ d := by
  intro e
  exact h (by rw [← e, char_nat])

/-! ## Dates and times need their separators -/

theorem scanNat_suffix (w : Nat) (acc : Option Nat) (t : List Char) : ∀ c ∈ (Iso.scanNat w acc t).2, c ∈ t := by
  induction w generalizing acc t with
  | zero => intro c h; exact h
  | succ w ih =>
    cases t with
    | nil => intro c h; exact h
    | cons d t =>
      intro c h
      rw [Iso.scanNat] at h
      split_ifs at h
      · exact List.mem_cons_of_mem _ (ih _ _ c h)
      · exact h

theorem scanInt_suffix {w : Nat} {t : List Char} {n : Int} {r : List Char} (h : Iso.scanInt w t = some (n, r)) : ∀ c ∈ r, c ∈ t := by
  unfold Iso.scanInt at h
  split at h
  · exact absurd h (by simp)
  · rename_i d u hd
    have hs : ∀ c ∈ d :: u, c ∈ t := fun c hc => (List.dropWhile_sublist Iso.isSpace).subset (hd ▸ hc)
    by_cases hc : d = '-' ∨ d = '+'
    · rw [if_pos hc] at h
      have := scanNat_suffix (w - 1) none u
      generalize Iso.scanNat (w - 1) none u = x at h this
      obtain ⟨_ | k, v⟩ := x
      · exact absurd h (by simp)
      · obtain ⟨_, rfl⟩ := Prod.mk.inj (Option.some.inj h)
        exact fun c hc => hs c (List.mem_cons_of_mem _ (this c hc))
    · rw [if_neg hc] at h
      have := scanNat_suffix w none (d :: u)
      generalize Iso.scanNat w none (d :: u) = x at h this
      obtain ⟨_ | k, v⟩ := x
      · exact absurd h (by simp)
      · obtain ⟨_, rfl⟩ := Prod.mk.inj (Option.some.inj h)
        exact fun c hc => hs c (this c hc)

theorem scanChar_none {c : Char} {t : List Char} (h : c ∉ t) : Iso.scanChar c t = none := by
  cases t with
  | nil => rfl
  | cons d t =>
    rw [Iso.scanChar, if_neg]
    intro e
    exact h (by simp [e])

theorem no_date {t : List Char} (h : '-' ∉ t) : Iso.strpDate t = -1 := by
  unfold Iso.strpDate
  split
  · rfl
  · rename_i y r hy
    rw [scanChar_none fun m => h (scanInt_suffix hy _ m)]
    rfl

theorem no_time {t : List Char} (h : ':' ∉ t) : Iso.strpTime t = -1 := by
  unfold Iso.strpTime
  split
  · rfl
  · rename_i y r hy
    rw [scanChar_none fun m => h (scanInt_suffix hy _ m)]
    rfl

theorem chars_no {s : Str} {d : Char} (h : ∀ c ∈ s, c.toNat ≠ d.toNat) : d ∉ chars s := by
  intro m
  rw [chars, List.mem_map] at m
  obtain ⟨c, hc, e⟩ := m
  exact char_ne (h c hc) e

/-! ## Numbers -/

theorem decimal_acc (s : Str) (n : Nat) : s.foldl (fun n c => 10 * n + (c.toNat - 48)) n = n * 10 ^ s.length + value s := by
  induction s generalizing n with
  | nil => simp [value]
  | cons c s ih =>
    rw [List.foldl_cons, ih, value, List.length_cons, Nat.pow_succ]
    ring

theorem decimal_value (s : Str) : decimal s = value s := by
  rw [decimal, decimal_acc]; simp

theorem take_digits {s : Str} (h : ∀ c ∈ s, Digit c) : s.takeWhile isDig = s := by
  induction s with
  | nil => rfl
  | cons c s ih => rw [List.takeWhile_cons, isDig_iff.2 (h c (by simp)), if_pos rfl, ih fun d hd => h d (by simp [hd])]

theorem digit_ne {c : Byte} (h : Digit c) : c ≠ 45#8 ∧ c ≠ 46#8 ∧ c.toNat ≠ 45 ∧ c.toNat ≠ 58 := by
  obtain ⟨h1, h2⟩ := h
  refine ⟨?_, ?_, by omega, by omega⟩ <;> (rintro rfl; revert h1; decide)

/-- Digits only: all is copied. -/
theorem scanNum_digits (s : Str) (h : ∀ c ∈ s, Digit c) (k dec : Nat) (hk : k + s.length ≤ 79) : scanNum s k dec = (s, dec) := by
  induction s generalizing k with
  | nil => rfl
  | cons c s ih =>
    have hc := h c (by simp)
    rw [List.length_cons] at hk
    rw [scanNum, if_neg (digit_ne hc).2.1, if_neg (by rw [isDig_iff.2 hc]; simp)]
    split_ifs with h1
    · have : s = [] := List.length_eq_zero_iff.1 (by omega)
      rw [this]
    · rw [ih (fun c hc => h c (by simp [hc])) (k + 1) (by omega)]

/-- Digits, then something. -/
theorem scanNum_append (s t : Str) (h : ∀ c ∈ s, Digit c) (k dec : Nat) (hk : k + s.length < 79) :
    scanNum (s ++ t) k dec = (s ++ (scanNum t (k + s.length) dec).1, (scanNum t (k + s.length) dec).2) := by
  induction s generalizing k with
  | nil => rfl
  | cons c s ih =>
    have hc := h c (by simp)
    rw [List.length_cons] at hk
    rw [List.cons_append, scanNum, if_neg (digit_ne hc).2.1, if_neg (by rw [isDig_iff.2 hc]; simp), if_neg (by omega), ih (fun c hc => h c (by simp [hc])) (k + 1) (by omega)]
    rw [List.length_cons, show k + 1 + s.length = k + (s.length + 1) by omega]
    rfl

theorem scanNum_ge (s : Str) (k dec : Nat) : dec ≤ (scanNum s k dec).2 ∨ (scanNum s k dec).2 = 2 := by
  induction s generalizing k dec with
  | nil => exact Or.inl (Nat.le_refl _)
  | cons c s ih =>
    rw [scanNum]
    split_ifs
    · left; dsimp only; omega
    · rcases ih (k + 1) (dec + 1) with h | h
      · left; dsimp only; omega
      · exact Or.inr h
    · exact Or.inr rfl
    · exact Or.inl (Nat.le_refl _)
    · exact ih (k + 1) dec

/-- One step of the scan, after the first character. -/
theorem scanNum_step (c : Byte) (s : Str) (k dec : Nat) (hk : k + (s.length + 1) ≤ 79) (h0 : k ≠ 0) :
    (c = 46#8 ∧ (scanNum (c :: s) k dec).2 = (scanNum s (k + 1) (dec + 1)).2) ∨ (scanNum (c :: s) k dec).2 = 2 ∨
    (Digit c ∧ (scanNum (c :: s) k dec).2 = (scanNum s (k + 1) dec).2) := by
  have e : k + 1 ≥ 79 → s = [] := fun h => List.length_eq_zero_iff.1 (by omega)
  by_cases h1 : c = 46#8
  · left
    refine ⟨h1, ?_⟩
    rw [scanNum, if_pos h1]
    by_cases h2 : k + 1 ≥ 79
    · rw [if_pos h2, e h2]; rfl
    · rw [if_neg h2]
  · right
    by_cases h3 : isDig c = false ∧ k ≠ 0
    · left; rw [scanNum, if_neg h1, if_pos h3]
    · right
      refine ⟨isDig_iff.1 (by by_contra hc; exact h3 ⟨by simpa using hc, h0⟩), ?_⟩
      rw [scanNum, if_neg h1, if_neg h3]
      by_cases h2 : k + 1 ≥ 79
      · rw [if_pos h2, e h2]; rfl
      · rw [if_neg h2]

/-- No separator and no mistake. -/
theorem scanNum_same (s : Str) (k dec : Nat) (hd : dec < 2) (hk : k + s.length ≤ 79) (h0 : k ≠ 0) (h : (scanNum s k dec).2 = dec) : ∀ c ∈ s, Digit c := by
  induction s generalizing k with
  | nil => simp
  | cons c s ih =>
    rw [List.length_cons] at hk
    rcases scanNum_step c s k dec hk h0 with ⟨_, g⟩ | g | ⟨g1, g⟩
    · rcases scanNum_ge s (k + 1) (dec + 1) with g2 | g2 <;> omega
    · omega
    · intro d hd
      rcases List.mem_cons.1 hd with rfl | hd
      · exact g1
      · exact ih (k + 1) (by omega) (by omega) (by omega) d hd

/-- One separator. -/
theorem scanNum_one (s : Str) (k : Nat) (hk : k + s.length ≤ 79) (h0 : k ≠ 0) (h : (scanNum s k 0).2 = 1) :
    ∃ a b, s = a ++ 46#8 :: b ∧ (∀ c ∈ a, Digit c) ∧ ∀ c ∈ b, Digit c := by
  induction s generalizing k with
  | nil => simp [scanNum] at h
  | cons c s ih =>
    rw [List.length_cons] at hk
    rcases scanNum_step c s k 0 hk h0 with ⟨g1, g⟩ | g | ⟨g1, g⟩
    · exact ⟨[], s, by simp [g1], by simp, scanNum_same s (k + 1) 1 (by omega) (by omega) (by omega) (g.symm.trans h)⟩
    · omega
    · obtain ⟨a, b, e, ha, hb⟩ := ih (k + 1) (by omega) (by omega) (by omega)
      refine ⟨c :: a, b, by simp [e], ?_, hb⟩
      intro d hd
      rcases List.mem_cons.1 hd with rfl | hd
      · exact g1
      · exact ha d hd

/-- errno stays clear. -/
theorem parseInput_clear (atof : Str → Word × Bool) (s : Str) : parseInput atof false s = (parse atof s, false) := by
  rw [parse]
  apply Prod.ext
  · rfl
  · unfold parseInput
    cases s with
    | nil => rfl
    | cons c r =>
      dsimp only
      split_ifs <;> rfl

end WG.Csv
