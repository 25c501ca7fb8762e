import Verif.Yajl.Lex
import Verif.Yajl.Spec
/-! # The tokens of the lexer are those of the grammar -/
namespace WG.Yajl
open WG.Recs (Byte)

instance (a b : Nat) (c : Byte) : Decidable (Between a b c) := by unfold Between; infer_instance

/-! ## Tables of bytes -/

theorem isCont_iff : ∀ c : Byte, isCont c = true ↔ Between 0x80 0xbf c := by decide +kernel
theorem lead1 : ∀ c : Byte, c ≤ 0x7f#8 ↔ Between 0x00 0x7f c := by decide +kernel
theorem lead2 : ∀ c : Byte, c >>> 5 = 6#8 ↔ Between 0xc0 0xdf c := by decide +kernel
theorem lead3 : ∀ c : Byte, c >>> 4 = 0x0e#8 ↔ Between 0xe0 0xef c := by decide +kernel
theorem lead4 : ∀ c : Byte, c >>> 3 = 0x1e#8 ↔ Between 0xf0 0xf7 c := by decide +kernel
theorem isDigit_iff : ∀ c : Byte, isDigit c = true ↔ Between 0x30 0x39 c := by decide +kernel
theorem isIJC_iff : ∀ c : Byte, isIJC c = true ↔ ¬ (0x20 ≤ c.toNat ∧ c ≠ 0x22#8 ∧ c ≠ 0x5c#8) := by decide +kernel
theorem isVHC_iff : ∀ c : Byte, isVHC c = true ↔ Between 0x30 0x39 c ∨ Between 0x41 0x46 c ∨ Between 0x61 0x66 c := by decide +kernel
theorem isWs_iff : ∀ c : Byte, isWs c = true ↔ c ∈ [0x09#8, 0x0a#8, 0x0b#8, 0x0c#8, 0x0d#8, 0x20#8] := by decide +kernel
theorem isVEC_iff : ∀ c : Byte, isVEC c = true ↔ c ∈ shortEsc.map Prod.fst := by decide +kernel
theorem unesc_iff : ∀ c : Byte, ∀ p ∈ shortEsc, p.1 = c → unesc c = some p.2 := by decide +kernel
theorem hexVal_digit : ∀ c : Byte, Between 0x30 0x39 c → hexVal c = some (c.toNat - 0x30) := by decide +kernel
theorem hexVal_upper : ∀ c : Byte, Between 0x41 0x46 c → hexVal c = some (c.toNat - 0x41 + 10) := by decide +kernel
theorem hexVal_lower : ∀ c : Byte, Between 0x61 0x66 c → hexVal c = some (c.toNat - 0x61 + 10) := by decide +kernel

theorem isVHC_of {c : Byte} {n : Nat} (h : Hex c n) : isVHC c = true := by
  rw [isVHC_iff]
  cases h with
  | digit h => exact Or.inl h
  | upper h => exact Or.inr (Or.inl h)
  | lower h => exact Or.inr (Or.inr h)

theorem hex_of {c : Byte} (h : isVHC c = true) : ∃ n, Hex c n := by
  rw [isVHC_iff] at h
  rcases h with h | h | h
  exacts [⟨_, .digit h⟩, ⟨_, .upper h⟩, ⟨_, .lower h⟩]

theorem hexVal_of {c : Byte} {n : Nat} (h : Hex c n) : hexVal c = some n := by
  cases h with
  | digit h => exact hexVal_digit c h
  | upper h => exact hexVal_upper c h
  | lower h => exact hexVal_lower c h

theorem hex_lt {c : Byte} {n : Nat} (h : Hex c n) : n < 16 := by
  cases h with
  | digit h => obtain ⟨h1, h2⟩ := h; omega
  | upper h => obtain ⟨h1, h2⟩ := h; omega
  | lower h => obtain ⟨h1, h2⟩ := h; omega

theorem shl_or {v d : Nat} (h : d < 16) : (v <<< 4) ||| d = v * 16 + d := by
  rw [Nat.shiftLeft_eq, show (2 : Nat) ^ 4 = 16 by rfl, Nat.mul_comm, ← show (2 : Nat) ^ 4 = 16 by rfl, ← Nat.two_pow_add_eq_or_of_lt (i := 4) h v]

theorem hex4_of {h : List Byte} {n : Nat} (hh : Hex4 h n) : hexToDigit h 0 = some n := by
  cases hh with
  | mk a b c d =>
    simp only [hexToDigit, hexVal_of a, hexVal_of b, hexVal_of c, hexVal_of d, shl_or (hex_lt a), shl_or (hex_lt b), shl_or (hex_lt c), shl_or (hex_lt d)]
    simp

theorem hex4_len {h : List Byte} {n : Nat} (hh : Hex4 h n) : h.length = 4 := by cases hh; rfl

theorem hex4_lt {h : List Byte} {n : Nat} (hh : Hex4 h n) : n < 0x10000 := by
  cases hh with
  | mk a b c d => have := hex_lt a; have := hex_lt b; have := hex_lt c; have := hex_lt d; omega

/-! ## Strings -/

/-- What the lexer lets pass as the inside of a string; the flag tells whether there are escapes. -/
inductive LexBody : Bool → List Byte → Prop
  | nil : LexBody false []
  | char {u raw : List Byte} {e : Bool} : Utf8 u → (∀ c ∈ u, 0x20 ≤ c.toNat ∧ c ≠ 0x22#8 ∧ c ≠ 0x5c#8) → LexBody e raw → LexBody e (u ++ raw)
  | esc {d : Byte} {raw : List Byte} {e : Bool} : d ∈ shortEsc.map Prod.fst → LexBody e raw → LexBody true (0x5c#8 :: d :: raw)
  | hex {h raw : List Byte} {n : Nat} {e : Bool} : Hex4 h n → LexBody e raw → LexBody true (0x5c#8 :: 0x75#8 :: h ++ raw)

theorem tailP_split {p : Byte → Bool} : ∀ {n : Nat} {l r : List Byte} {t : Tok}, tailP p n l = .ok t r → ∃ a, l = a ++ r ∧ a.length = n ∧ ∀ c ∈ a, p c = true
  | 0, l, r, t, h => by cases h; exact ⟨[], rfl, rfl, by simp⟩
  | n + 1, [], r, t, h => by cases h
  | n + 1, c :: l, r, t, h => by
    rw [tailP] at h
    split_ifs at h with hc
    obtain ⟨a, h1, h2, h3⟩ := tailP_split h
    exact ⟨c :: a, by rw [h1]; rfl, by simp [h2], by simpa using ⟨hc, h3⟩⟩

theorem tailP_all {p : Byte → Bool} : ∀ {a r : List Byte}, (∀ c ∈ a, p c = true) → tailP p a.length (a ++ r) = .ok .string r
  | [], r, _ => rfl
  | c :: a, r, h => by
    rw [List.length_cons, List.cons_append, tailP, if_pos (h c (by simp))]
    exact tailP_all fun c hc => h c (by simp [hc])

theorem hex4_iff {h : List Byte} : (∃ n, Hex4 h n) ↔ h.length = 4 ∧ ∀ c ∈ h, isVHC c = true := by
  constructor
  · rintro ⟨n, hh⟩
    cases hh with
    | mk a b c d => exact ⟨rfl, by simpa using ⟨isVHC_of a, isVHC_of b, isVHC_of c, isVHC_of d⟩⟩
  · rintro ⟨h1, h2⟩
    match h, h1 with
    | [a, b, c, d], _ =>
      obtain ⟨i, hi⟩ := hex_of (h2 a (by simp)); obtain ⟨j, hj⟩ := hex_of (h2 b (by simp))
      obtain ⟨k, hk⟩ := hex_of (h2 c (by simp)); obtain ⟨l, hl⟩ := hex_of (h2 d (by simp))
      exact ⟨_, .mk hi hj hk hl⟩

theorem utf8P_split {c : Byte} {l r : List Byte} {t : Tok} (h : utf8P c l = .ok t r) : ∃ a, l = a ++ r ∧ Utf8 (c :: a) ∧ ∀ d ∈ a, Between 0x80 0xbf d := by
  unfold utf8P at h
  split_ifs at h with h1 h2 h3 h4
  · cases h; exact ⟨[], rfl, .one ((lead1 c).1 h1), by simp⟩
  all_goals
    obtain ⟨a, e1, e2, e3⟩ := tailP_split h
    have e4 : ∀ d ∈ a, Between 0x80 0xbf d := fun d hd => (isCont_iff d).1 (e3 d hd)
    refine ⟨a, e1, ?_, e4⟩
  · match a, e2, e4 with | [d], _, e4 => exact .two ((lead2 c).1 h2) (e4 d (by simp))
  · match a, e2, e4 with | [d, e], _, e4 => exact .three ((lead3 c).1 h3) (e4 d (by simp)) (e4 e (by simp))
  · match a, e2, e4 with | [d, e, f], _, e4 => exact .four ((lead4 c).1 h4) (e4 d (by simp)) (e4 e (by simp)) (e4 f (by simp))

theorem utf8P_all {c : Byte} {a r : List Byte} (h : Utf8 (c :: a)) : utf8P c (a ++ r) = .ok .string r := by
  have hc : ∀ {d : Byte}, Between 0x80 0xbf d → isCont d = true := fun {d} h => (isCont_iff d).2 h
  have hlt : ∀ {a b : Nat}, Between a b c → 0x7f < a → ¬ c ≤ 0x7f#8 := fun h ha hc => by
    have := ((lead1 c).1 hc).2; have := h.1; omega
  cases h with
  | one h => rw [utf8P, if_pos ((lead1 c).2 h)]; rfl
  | two h h1 =>
    rw [utf8P, if_neg (hlt h (by omega)), if_pos ((lead2 c).2 h)]
    exact tailP_all (a := [_]) (by simpa using hc h1)
  | three h h1 h2 =>
    rw [utf8P, if_neg (hlt h (by omega)), if_neg (fun hh => by have := ((lead2 c).1 hh).2; have := h.1; omega), if_pos ((lead3 c).2 h)]
    exact tailP_all (a := [_, _]) (by simpa using ⟨hc h1, hc h2⟩)
  | four h h1 h2 h3 =>
    rw [utf8P, if_neg (hlt h (by omega)), if_neg (fun hh => by have := ((lead2 c).1 hh).2; have := h.1; omega),
      if_neg (fun hh => by have := ((lead3 c).1 hh).2; have := h.1; omega), if_pos ((lead4 c).2 h)]
    exact tailP_all (a := [_, _, _]) (by simpa using ⟨hc h1, hc h2, hc h3⟩)

theorem not_75 {d : Byte} (h : d ∈ shortEsc.map Prod.fst) : d ≠ 0x75#8 := by
  rintro rfl; revert h; decide

theorem strP_sound : ∀ (n : Nat) {l r : List Byte} {e : Bool} {t : Tok}, l.length ≤ n → strP l e = .ok t r →
    ∃ e' b, LexBody e' b ∧ l = b ++ 0x22#8 :: r ∧ t = if (e || e') then .stringEsc else .string := by
  intro n
  induction n with
  | zero => intro l r e t hn h; rw [List.length_eq_zero_iff.1 (Nat.le_zero.1 hn), strP_nil] at h; cases h
  | succ n ih =>
    intro l r e t hn
    induction l using strP_cases with
    | hn => intro h; rw [strP_nil] at h; cases h
    | hq l => intro h; rw [strP_quote] at h; cases h; exact ⟨false, [], .nil, rfl, by simp⟩
    | hb => intro h; rw [strP_bs] at h; cases h
    | hu l =>
      intro h
      rw [strP_hex] at h
      simp only [List.length_cons] at hn
      cases ht : tailP isVHC 4 l with
      | eof => rw [ht] at h; cases h
      | err => rw [ht] at h; cases h
      | ok t' r' =>
        rw [ht] at h
        have := tailP_len ht
        obtain ⟨a, g1, g2, g3⟩ := tailP_split ht
        obtain ⟨m, hm⟩ := hex4_iff.2 ⟨g2, g3⟩
        obtain ⟨e', b, f1, f2, f3⟩ := ih (by omega) h
        exact ⟨true, _, .hex hm f1, by rw [g1, f2]; simp, by simpa using f3⟩
    | he d l hd =>
      intro h
      rw [strP_esc hd] at h
      simp only [List.length_cons] at hn
      split_ifs at h with hv
      obtain ⟨e', b, f1, f2, f3⟩ := ih (by omega) h
      exact ⟨true, _, .esc ((isVEC_iff d).1 hv) f1, by rw [f2]; simp, by simpa using f3⟩
    | hc c l h1 h2 =>
      intro h
      rw [strP_char h1 h2] at h
      simp only [List.length_cons] at hn
      split_ifs at h with hi
      cases ht : utf8P c l with
      | eof => rw [ht] at h; cases h
      | err => rw [ht] at h; cases h
      | ok t r' =>
        rw [ht] at h
        have := utf8P_len ht
        obtain ⟨a, g1, g2, g3⟩ := utf8P_split ht
        obtain ⟨e', b, f1, f2, f3⟩ := ih (by omega) h
        refine ⟨e', _, .char g2 ?_ f1, by rw [g1, f2]; simp, f3⟩
        intro d hd
        rcases List.mem_cons.1 hd with rfl | hd
        · rw [isIJC_iff] at hi; exact not_not.1 hi
        · obtain ⟨k1, k2⟩ := g3 d hd
          refine ⟨by omega, ?_, ?_⟩ <;> rintro rfl <;> revert k1 <;> decide

theorem strP_complete {e' : Bool} {b : List Byte} (h : LexBody e' b) : ∀ (e : Bool) (r : List Byte), strP (b ++ 0x22#8 :: r) e = .ok (if (e || e') then .stringEsc else .string) r := by
  induction h with
  | nil => intro e r; rw [List.nil_append, strP_quote]; simp
  | @char u raw e' hu hc hb ih =>
    intro e r
    cases u with
    | nil => cases hu
    | cons c a =>
      obtain ⟨k1, k2, k3⟩ := hc c (by simp)
      rw [List.append_assoc, List.cons_append, strP_char k2 k3, if_neg (by rw [isIJC_iff]; exact not_not.2 ⟨k1, k2, k3⟩), utf8P_all hu]
      exact ih e r
  | @esc d raw e' hd hb ih =>
    intro e r
    rw [List.cons_append, List.cons_append, strP_esc (not_75 hd), if_pos ((isVEC_iff d).2 hd), ih]
    simp
  | @hex h raw n e' hh hb ih =>
    intro e r
    obtain ⟨k1, k2⟩ := hex4_iff.1 ⟨n, hh⟩
    have := tailP_all (p := isVHC) (r := raw ++ 0x22#8 :: r) k2
    rw [k1] at this
    rw [List.append_assoc, List.cons_append, List.cons_append, strP_hex, this]
    dsimp only
    rw [ih]; simp

/-! ## Numbers -/

/-- The text of a number; `f`: with fraction or exponent. -/
inductive NumText : Bool → List Byte → Prop
  | int {s l : List Byte} : (s = [] ∨ s = [0x2d#8]) → NatText l → NumText false (s ++ l)
  | float {l : List Byte} : FloatText l → NumText true l

def numTok (f : Bool) : Tok := if f then .double else .integer

theorem digits_take (l : List Byte) : ∀ c ∈ l.takeWhile isDigit, Between 0x30 0x39 c := fun c hc => (isDigit_iff c).1 (List.mem_takeWhile_imp hc)

theorem expD_sound {l r : List Byte} {t : Tok} (h : expD l = .ok t r) : t = .double ∧ ∃ ds, l = ds ++ r ∧ Digits ds := by
  cases l with
  | nil => cases h
  | cons c l =>
    rw [expD] at h
    split_ifs at h with hc
    cases hd : l.dropWhile isDigit with
    | nil => rw [hd] at h; cases h
    | cons d r' =>
      rw [hd] at h
      cases h
      refine ⟨rfl, c :: l.takeWhile isDigit, ?_, by simp, ?_⟩
      · rw [← hd, List.cons_append, List.takeWhile_append_dropWhile]
      · intro x hx
        rcases List.mem_cons.1 hx with rfl | hx
        · exact (isDigit_iff _).1 hc
        · exact digits_take l x hx

/-- The exponent. -/
def ExpText (x : List Byte) : Prop := ∃ e s ds, x = e :: s ++ ds ∧ (e = 0x65#8 ∨ e = 0x45#8) ∧ (s = [] ∨ s = [0x2b#8] ∨ s = [0x2d#8]) ∧ Digits ds

theorem expP_sound {l r : List Byte} {t tok : Tok} (h : expP l tok = .ok t r) : (t = tok ∧ l = r) ∨ (t = .double ∧ ∃ x, l = x ++ r ∧ ExpText x) := by
  rw [expP_def] at h
  rcases l with _ | ⟨c, _ | ⟨d, l⟩⟩
  · cases h
  · dsimp only at h; split_ifs at h; cases h; exact Or.inl ⟨rfl, rfl⟩
  · dsimp only at h
    split_ifs at h with h1 h2
    · obtain ⟨rfl, ds, rfl, hds⟩ := expD_sound h
      exact Or.inr ⟨rfl, c :: [d] ++ ds, by simp, c, [d], ds, rfl, h1, by simpa using h2, hds⟩
    · obtain ⟨rfl, ds, e, hds⟩ := expD_sound h
      exact Or.inr ⟨rfl, c :: [] ++ ds, by rw [e]; simp, c, [], ds, rfl, h1, by simp, hds⟩
    · cases h; exact Or.inl ⟨rfl, rfl⟩

theorem fracP_sound {l r : List Byte} {t : Tok} (h : fracP l = .ok t r) :
    ∃ frac exp, l = frac ++ exp ++ r ∧ (frac = [] ∨ ∃ ds, frac = 0x2e#8 :: ds ∧ Digits ds) ∧ (exp = [] ∨ ExpText exp) ∧
      ((t = .integer ∧ frac = [] ∧ exp = []) ∨ (t = .double ∧ (frac ≠ [] ∨ exp ≠ []))) := by
  have hne : ∀ {x : List Byte}, ExpText x → x ≠ [] := by rintro x ⟨e, s, ds, rfl, _⟩; simp
  rw [fracP.eq_def] at h
  have plain : ∀ {l : List Byte}, expP l .integer = .ok t r → ∃ frac exp, l = frac ++ exp ++ r ∧ (frac = [] ∨ ∃ ds, frac = 0x2e#8 :: ds ∧ Digits ds) ∧ (exp = [] ∨ ExpText exp) ∧
      ((t = .integer ∧ frac = [] ∧ exp = []) ∨ (t = .double ∧ (frac ≠ [] ∨ exp ≠ []))) := by
    intro l h
    rcases expP_sound h with ⟨rfl, rfl⟩ | ⟨rfl, x, rfl, hx⟩
    · exact ⟨[], [], rfl, Or.inl rfl, Or.inl rfl, Or.inl ⟨rfl, rfl, rfl⟩⟩
    · exact ⟨[], x, rfl, Or.inl rfl, Or.inr hx, Or.inr ⟨rfl, Or.inr (hne hx)⟩⟩
  rcases l with _ | ⟨c, _ | ⟨d, l⟩⟩
  · cases h
  · dsimp only at h; split_ifs at h; exact plain h
  · dsimp only at h
    split_ifs at h with h1 h2
    · subst h1
      have hds : Digits (d :: l.takeWhile isDigit) := ⟨by simp, fun x hx => by
        rcases List.mem_cons.1 hx with rfl | hx
        · exact (isDigit_iff _).1 h2
        · exact digits_take l x hx⟩
      have hl : l = l.takeWhile isDigit ++ l.dropWhile isDigit := (List.takeWhile_append_dropWhile).symm
      rcases expP_sound h with ⟨rfl, hr⟩ | ⟨rfl, x, hr, hx⟩
      · exact ⟨0x2e#8 :: d :: l.takeWhile isDigit, [], by rw [← hr]; simp, Or.inr ⟨_, rfl, hds⟩, Or.inl rfl, Or.inr ⟨rfl, Or.inl (by simp)⟩⟩
      · refine ⟨0x2e#8 :: d :: l.takeWhile isDigit, x, ?_, Or.inr ⟨_, rfl, hds⟩, Or.inr hx, Or.inr ⟨rfl, Or.inl (by simp)⟩⟩
        rw [List.append_assoc, ← hr]; simp
    · exact plain h

theorem intP_sound {l r : List Byte} {t : Tok} (h : intP l = .ok t r) :
    ∃ int frac exp, l = int ++ frac ++ exp ++ r ∧ NatText int ∧ (frac = [] ∨ ∃ ds, frac = 0x2e#8 :: ds ∧ Digits ds) ∧ (exp = [] ∨ ExpText exp) ∧
      ((t = .integer ∧ frac = [] ∧ exp = []) ∨ (t = .double ∧ (frac ≠ [] ∨ exp ≠ []))) := by
  cases l with
  | nil => cases h
  | cons c l =>
    rw [intP] at h
    split_ifs at h with h1 h2
    · obtain ⟨frac, exp, rfl, h3⟩ := fracP_sound h
      refine ⟨[c], frac, exp, by simp, ⟨⟨by simp, ?_⟩, fun _ => by rw [h1]⟩, h3⟩
      subst h1; simp [Between]
    · obtain ⟨frac, exp, h3, h4⟩ := fracP_sound h
      refine ⟨c :: l.takeWhile isDigit, frac, exp, ?_, ⟨⟨by simp, ?_⟩, fun hh => absurd (by simpa using hh) h1⟩, h4⟩
      · have e : c :: l.takeWhile isDigit ++ frac ++ exp ++ r = c :: (l.takeWhile isDigit ++ (frac ++ exp ++ r)) := by simp
        rw [e, ← h3, List.takeWhile_append_dropWhile]
      · intro x hx
        rcases List.mem_cons.1 hx with rfl | hx
        · refine (isDigit_iff _).1 ?_
          simp only [isDigit, decide_eq_true_eq]
          refine ⟨?_, h2.2⟩
          have := h2.1
          rw [BitVec.le_def] at *; simp at *; omega
        · exact digits_take l x hx

theorem numP_sound {l r : List Byte} {t : Tok} (h : numP l = .ok t r) : ∃ f raw, t = numTok f ∧ l = raw ++ r ∧ NumText f raw := by
  have key : ∀ {s l : List Byte}, (s = [] ∨ s = [0x2d#8]) → intP l = .ok t r → ∃ f raw, t = numTok f ∧ s ++ l = raw ++ r ∧ NumText f raw := by
    intro s l hs h
    obtain ⟨int, frac, exp, rfl, h1, h2, h3, h4⟩ := intP_sound h
    rcases h4 with ⟨rfl, rfl, rfl⟩ | ⟨rfl, h4⟩
    · exact ⟨false, s ++ int, rfl, by simp, .int hs h1⟩
    · exact ⟨true, s ++ int ++ frac ++ exp, rfl, by simp, .float ⟨s, int, frac, exp, rfl, hs, h1, h2, h3, h4⟩⟩
  cases l with
  | nil => cases h
  | cons c l =>
    rw [numP] at h
    split_ifs at h with h1
    · subst h1; exact key (s := [0x2d#8]) (Or.inr rfl) h
    · exact key (s := []) (Or.inl rfl) h

/-- A byte that cannot continue a number. -/
def Stop (c : Byte) : Prop := isDigit c = false ∧ c ≠ 0x2e#8 ∧ c ≠ 0x65#8 ∧ c ≠ 0x45#8

theorem drop_digits {ds : List Byte} (h : ∀ c ∈ ds, Between 0x30 0x39 c) {c : Byte} {r : List Byte} (hc : isDigit c = false) :
    (ds ++ c :: r).dropWhile isDigit = c :: r := by
  rw [List.dropWhile_append_of_pos fun x hx => (isDigit_iff x).2 (h x hx), List.dropWhile_cons_of_neg (by simp [hc])]

theorem expD_complete {ds : List Byte} (h : Digits ds) {c : Byte} {r : List Byte} (hc : isDigit c = false) : expD (ds ++ c :: r) = .ok .double (c :: r) := by
  obtain ⟨h1, h2⟩ := h
  cases ds with
  | nil => exact absurd rfl h1
  | cons d ds =>
    rw [List.cons_append, expD, if_pos ((isDigit_iff d).2 (h2 d (by simp))), drop_digits (fun x hx => h2 x (by simp [hx])) hc]

theorem expP_stop {c : Byte} {r : List Byte} (hc : Stop c) (tok : Tok) : expP (c :: r) tok = .ok tok (c :: r) := by
  rw [expP_def]; dsimp only; rw [if_neg (by rintro (h | h); exacts [hc.2.2.1 h, hc.2.2.2 h])]

theorem expP_complete {x : List Byte} (hx : ExpText x) {c : Byte} {r : List Byte} (hc : Stop c) (tok : Tok) : expP (x ++ c :: r) tok = .ok .double (c :: r) := by
  obtain ⟨e, s, ds, rfl, he, hs, hds⟩ := hx
  rw [expP_def, List.cons_append, List.cons_append]
  dsimp only
  rw [if_pos he]
  have hd := expD_complete hds hc.1 (r := r)
  rcases hs with rfl | rfl | rfl
  · rw [List.nil_append]
    cases ds with
    | nil => exact absurd rfl hds.1
    | cons d ds =>
      have hdd := hds.2 d (by simp)
      rw [List.cons_append] at hd ⊢
      dsimp only
      rw [if_neg, hd]
      rintro (rfl | rfl) <;> revert hdd <;> decide
  · exact hd
  · exact hd

theorem exp_head {x : List Byte} (hx : ExpText x) : ∃ e y, x = e :: y ∧ isDigit e = false ∧ e ≠ 0x2e#8 := by
  obtain ⟨e, s, ds, rfl, he, -⟩ := hx
  exact ⟨e, s ++ ds, rfl, by rcases he with rfl | rfl <;> decide, by rcases he with rfl | rfl <;> decide⟩

theorem fracP_complete {frac exp : List Byte} (hf : frac = [] ∨ ∃ ds, frac = 0x2e#8 :: ds ∧ Digits ds) (he : exp = [] ∨ ExpText exp) {c : Byte} {r : List Byte} (hc : Stop c) :
    fracP (frac ++ exp ++ c :: r) = .ok (numTok (decide (frac ≠ [] ∨ exp ≠ []))) (c :: r) := by
  have hstop : ∀ tok, expP (exp ++ c :: r) tok = .ok (if exp = [] then tok else .double) (c :: r) := by
    intro tok
    rcases he with rfl | he
    · exact expP_stop hc tok
    · rw [expP_complete he hc]
      obtain ⟨e, y, rfl, -⟩ := exp_head he
      simp
  have hhead : ∃ d y, exp ++ c :: r = d :: y ∧ isDigit d = false ∧ d ≠ 0x2e#8 := by
    rcases he with rfl | he
    · exact ⟨c, r, rfl, hc.1, hc.2.1⟩
    · obtain ⟨e, y, rfl, h1, h2⟩ := exp_head he
      exact ⟨e, y ++ c :: r, rfl, h1, h2⟩
  rcases hf with rfl | ⟨ds, rfl, h1, h2⟩
  · rw [List.nil_append, fracP.eq_def]
    obtain ⟨d, y, e, h3, h4⟩ := hhead
    have hs := hstop .integer
    rw [e] at hs ⊢
    dsimp only
    rw [if_neg h4, hs]
    by_cases hx : exp = [] <;> simp [hx, numTok]
  · rw [fracP.eq_def, List.append_assoc, List.cons_append]
    dsimp only
    rw [if_pos rfl]
    cases ds with
    | nil => exact absurd rfl h1
    | cons d ds =>
      rw [List.cons_append]
      dsimp only
      obtain ⟨d', y, e, h3, h4⟩ := hhead
      rw [if_pos ((isDigit_iff d).2 (h2 d (by simp))), e, drop_digits (fun x hx => h2 x (by simp [hx])) h3, ← e, hstop .double]
      simp [numTok]

theorem intP_complete {int frac exp : List Byte} (hi : NatText int) (hf : frac = [] ∨ ∃ ds, frac = 0x2e#8 :: ds ∧ Digits ds) (he : exp = [] ∨ ExpText exp) {c : Byte} {r : List Byte}
    (hc : Stop c) : intP (int ++ frac ++ exp ++ c :: r) = .ok (numTok (decide (frac ≠ [] ∨ exp ≠ []))) (c :: r) := by
  obtain ⟨⟨h1, h2⟩, h3⟩ := hi
  have key := fracP_complete hf he hc (r := r)
  have hhead : ∃ d y, frac ++ exp ++ c :: r = d :: y ∧ isDigit d = false := by
    rcases hf with rfl | ⟨ds, rfl, -⟩
    · rcases he with rfl | he
      · exact ⟨c, r, rfl, hc.1⟩
      · obtain ⟨e, y, rfl, h1, h2⟩ := exp_head he
        exact ⟨e, y ++ c :: r, rfl, h1⟩
    · exact ⟨_, _, rfl, by decide⟩
  rw [List.append_assoc int, List.append_assoc int]
  cases int with
  | nil => exact absurd rfl h1
  | cons d ds =>
    rw [List.cons_append, intP]
    by_cases hd : d = 0x30#8
    · have := h3 (by rw [hd]; rfl)
      rw [List.cons.injEq] at this
      rw [if_pos hd, this.2, List.nil_append, key]
    · rw [if_neg hd, if_pos]
      · obtain ⟨x, y, e, h4⟩ := hhead
        rw [e, drop_digits (fun x hx => h2 x (by simp [hx])) h4, ← e, key]
      · obtain ⟨k1, k2⟩ := h2 d (by simp)
        have : d.toNat ≠ 0x30 := fun e => hd (BitVec.eq_of_toNat_eq e)
        rw [BitVec.le_def, BitVec.le_def]
        simp; omega

theorem numP_complete {f : Bool} {raw : List Byte} (h : NumText f raw) {c : Byte} {r : List Byte} (hc : Stop c) : numP (raw ++ c :: r) = .ok (numTok f) (c :: r) := by
  have key : ∀ {s l : List Byte} {t : Tok}, (s = [] ∨ s = [0x2d#8]) → (∃ d y, l = d :: y ∧ d ≠ 0x2d#8) → intP (l ++ c :: r) = .ok t (c :: r) →
      numP (s ++ l ++ c :: r) = .ok t (c :: r) := by
    rintro s l t hs ⟨d, y, rfl, hd⟩ h
    rcases hs with rfl | rfl
    · rw [List.nil_append, List.cons_append] at *
      rw [numP, if_neg hd, h]
    · rw [List.append_assoc, List.singleton_append, numP, if_pos rfl, h]
  have hd : ∀ {l : List Byte}, NatText l → ∃ d y, l = d :: y ∧ d ≠ 0x2d#8 := by
    rintro l ⟨⟨h1, h2⟩, -⟩
    cases l with
    | nil => exact absurd rfl h1
    | cons d l =>
      refine ⟨d, l, rfl, ?_⟩
      rintro rfl
      have := h2 0x2d#8 (by simp)
      revert this; decide
  cases h with
  | @int s l hs hl =>
    refine key hs (hd hl) ?_
    have := intP_complete hl (Or.inl rfl) (Or.inl rfl) hc (r := r)
    simpa [numTok] using this
  | float hf =>
    obtain ⟨s, int, frac, exp, rfl, hs, h1, h2, h3, h4⟩ := hf
    rw [List.append_assoc s, List.append_assoc s]
    refine key hs ?_ ?_
    · obtain ⟨d, y, rfl, h⟩ := hd h1; exact ⟨d, y ++ (frac ++ exp), by simp, h⟩
    · have := intP_complete h1 h2 h3 hc (r := r)
      rw [decide_eq_true h4] at this
      simpa using this

/-! ## Comments, gaps -/

theorem lineP_sound : ∀ {l r : List Byte} {t : Tok}, lineP l = .ok t r → ∃ a, l = a ++ 0x0a#8 :: r ∧ 0x0a#8 ∉ a
  | [], r, t, h => by cases h
  | c :: l, r, t, h => by
    rw [lineP] at h
    split_ifs at h with hc
    · cases h; subst hc; exact ⟨[], rfl, by simp⟩
    · obtain ⟨a, rfl, h2⟩ := lineP_sound h
      exact ⟨c :: a, rfl, by simp [h2, Ne.symm hc]⟩

theorem lineP_complete : ∀ {a r : List Byte}, 0x0a#8 ∉ a → lineP (a ++ 0x0a#8 :: r) = .ok .comment r
  | [], r, _ => by rw [List.nil_append, lineP, if_pos rfl]
  | c :: a, r, h => by
    simp only [List.mem_cons, not_or] at h
    rw [List.cons_append, lineP, if_neg (Ne.symm h.1), lineP_complete h.2]

theorem lineP_open : ∀ {a : List Byte}, 0x0a#8 ∉ a → lineP a = .eof
  | [], _ => rfl
  | c :: a, h => by
    simp only [List.mem_cons, not_or] at h
    rw [lineP, if_neg (Ne.symm h.1), lineP_open h.2]

theorem not_infix_cons {c : Byte} {a : List Byte} (h : ¬ [0x2a#8, 0x2f#8] <:+: a) (hc : ¬ (c = 0x2a#8 ∧ a.head? = some 0x2f#8)) : ¬ [0x2a#8, 0x2f#8] <:+: c :: a := by
  rw [List.infix_cons_iff]
  rintro (hp | hi)
  · obtain ⟨x, hx⟩ := hp
    simp only [List.cons_append, List.nil_append, List.cons.injEq] at hx
    exact hc ⟨hx.1.symm, by rw [← hx.2]; rfl⟩
  · exact h hi

theorem blockP_cons {c : Byte} {l : List Byte} : blockP (c :: l) = if c = 0x2a#8 then match l with
      | [] => .eof
      | d :: r => if d = 0x2f#8 then .ok .comment r else blockP l
    else blockP l := by
  rw [blockP.eq_def]; rfl

theorem blockP_sound : ∀ {l r : List Byte} {t : Tok}, blockP l = .ok t r → ∃ a, l = a ++ 0x2a#8 :: 0x2f#8 :: r ∧ ¬ [0x2a#8, 0x2f#8] <:+: a
  | [], r, t, h => by cases h
  | c :: l, r, t, h => by
    rw [blockP_cons] at h
    split_ifs at h with hc
    · cases l with
      | nil => cases h
      | cons d l =>
        dsimp only at h
        split_ifs at h with hd
        · cases h; subst hc hd; exact ⟨[], rfl, by simp⟩
        · obtain ⟨a, h1, h2⟩ := blockP_sound h
          refine ⟨c :: a, by rw [h1]; rfl, not_infix_cons h2 ?_⟩
          rintro ⟨-, hh⟩
          cases a with
          | nil => cases hh
          | cons x a =>
            rw [List.cons_append, List.cons.injEq] at h1
            simp only [List.head?_cons, Option.some.injEq] at hh
            exact hd (h1.1.trans hh)
    · obtain ⟨a, h1, h2⟩ := blockP_sound h
      exact ⟨c :: a, by rw [h1]; rfl, not_infix_cons h2 (fun hh => hc hh.1)⟩

theorem blockP_complete : ∀ {a r : List Byte}, ¬ [0x2a#8, 0x2f#8] <:+: a → blockP (a ++ 0x2a#8 :: 0x2f#8 :: r) = .ok .comment r
  | [], r, _ => by rw [List.nil_append, blockP_cons, if_pos rfl]; dsimp only; rw [if_pos rfl]
  | c :: a, r, h => by
    rw [List.infix_cons_iff, not_or] at h
    have ih := blockP_complete (r := r) h.2
    rw [List.cons_append, blockP_cons]
    split_ifs with hc
    · cases a with
      | nil => rw [List.nil_append] at *; dsimp only; rw [if_neg (by decide), ih]
      | cons d a =>
        rw [List.cons_append] at *
        dsimp only
        rw [if_neg, ih]
        rintro rfl
        exact h.1 ⟨a, by rw [hc]; rfl⟩
    · exact ih

theorem Gap.append {a b : List Byte} (ha : Gap a) (hb : Gap b) : Gap (a ++ b) := by
  induction ha with
  | nil => exact hb
  | ws h _ ih => exact .ws h ih
  | @line l g h _ ih =>
    rw [List.append_assoc, List.cons_append, List.cons_append, List.cons_append, ← List.cons_append, ← List.cons_append]
    exact .line h ih
  | @block l g h _ ih =>
    rw [List.append_assoc, List.cons_append, List.cons_append, List.cons_append, List.cons_append, ← List.cons_append, ← List.cons_append]
    exact .block h ih

theorem Gap.lexP {g : List Byte} (h : Gap g) (l : List Byte) : lexP (g ++ l) = lexP l := by
  induction h with
  | nil => rfl
  | @ws c g hc _ ih => rw [List.cons_append, lexP_ws ((isWs_iff c).2 hc), ih]
  | @line a g ha _ ih =>
    rw [List.append_assoc, List.cons_append, List.cons_append, List.cons_append, lexP_com, comP, if_pos rfl, lineP_complete ha]
    exact ih
  | @block a g ha _ ih =>
    rw [List.append_assoc, List.cons_append, List.cons_append, List.cons_append, List.cons_append, lexP_com, comP, if_neg (by decide), if_pos rfl, blockP_complete ha]
    exact ih

theorem comP_sound {l r : List Byte} {t : Tok} (h : comP l = .ok t r) : ∃ a, l = a ++ r ∧ Gap (0x2f#8 :: a) := by
  cases l with
  | nil => cases h
  | cons c l =>
    rw [comP] at h
    split_ifs at h with h1 h2
    · subst h1
      obtain ⟨a, rfl, h2⟩ := lineP_sound h
      exact ⟨0x2f#8 :: a ++ [0x0a#8], by simp, .line h2 .nil⟩
    · subst h2
      obtain ⟨a, rfl, h2⟩ := blockP_sound h
      exact ⟨0x2a#8 :: a ++ [0x2a#8, 0x2f#8], by simp, .block h2 .nil⟩

/-! ## Tokens -/

/-- The texts of tokens. -/
inductive TokText : Tok → List Byte → Prop
  | single {c : Byte} {t : Tok} : single c = some t → TokText t [c]
  | null : TokText .null [0x6e#8, 0x75#8, 0x6c#8, 0x6c#8]
  | tru : TokText .bool [0x74#8, 0x72#8, 0x75#8, 0x65#8]
  | fls : TokText .bool [0x66#8, 0x61#8, 0x6c#8, 0x73#8, 0x65#8]
  | str {b : List Byte} {e : Bool} : LexBody e b → TokText (if e then .stringEsc else .string) (0x22#8 :: b ++ [0x22#8])
  | num {f : Bool} {raw : List Byte} : NumText f raw → TokText (numTok f) raw

theorem wordP_sound {t t' : Tok} : ∀ {w l r : List Byte}, wordP t w l = .ok t' r → t' = t ∧ l = w ++ r
  | [], l, r, h => by rw [wordP] at h; cases h; exact ⟨rfl, rfl⟩
  | w :: ws, [], r, h => by rw [wordP] at h; cases h
  | w :: ws, c :: l, r, h => by
    rw [wordP] at h
    split_ifs at h with hc
    obtain ⟨h1, h2⟩ := wordP_sound h
    exact ⟨h1, by rw [h2, not_not.1 hc]; rfl⟩

theorem wordP_complete {t : Tok} : ∀ (w r : List Byte), wordP t w (w ++ r) = .ok t r
  | [], r => by rw [List.nil_append, wordP]
  | w :: ws, r => by rw [List.cons_append, wordP, if_neg (by simp), wordP_complete ws r]

theorem longP_sound {c : Byte} {l r : List Byte} {t : Tok} (h : longP c l = .ok t r) : ∃ raw, c :: l = raw ++ r ∧ TokText t raw := by
  unfold longP at h
  split_ifs at h with h1 h2 h3 h4 h5
  · obtain ⟨rfl, rfl⟩ := wordP_sound h; subst h1; exact ⟨_, rfl, .tru⟩
  · obtain ⟨rfl, rfl⟩ := wordP_sound h; subst h2; exact ⟨_, rfl, .fls⟩
  · obtain ⟨rfl, rfl⟩ := wordP_sound h; subst h3; exact ⟨_, rfl, .null⟩
  · obtain ⟨e, b, f1, f2, f3⟩ := strP_sound _ (Nat.le_refl _) h
    subst h4 f3
    exact ⟨0x22#8 :: b ++ [0x22#8], by rw [f2]; simp, by rw [Bool.false_or]; exact .str f1⟩
  · obtain ⟨f, raw, rfl, h6, h7⟩ := numP_sound h
    exact ⟨raw, h6, .num h7⟩

theorem upTo_eq {l raw r : List Byte} (h : l = raw ++ r) : upTo l r = raw := by
  subst h
  rw [upTo, List.length_append, Nat.add_sub_cancel, List.take_left]

theorem lexP_sound : ∀ (n : Nat) {l : List Byte}, l.length ≤ n → ∀ {t : Tok} {raw r : List Byte}, lexP l = .ok t raw r → ∃ g, Gap g ∧ l = g ++ raw ++ r ∧ TokText t raw := by
  intro n
  induction n with
  | zero =>
    intro l hn t raw r h
    rw [List.length_eq_zero_iff.1 (Nat.le_zero.1 hn), lexP_nil] at h; cases h
  | succ n ih =>
    intro l hn t raw r h
    induction l using lexP_cases with
    | hn => rw [lexP_nil] at h; cases h
    | hs c t' l h' => rw [lexP_single h'] at h; cases h; exact ⟨[], .nil, rfl, .single h'⟩
    | hw c l hw =>
      rw [lexP_ws hw] at h
      obtain ⟨g, h1, h2, h3⟩ := ih (by rw [List.length_cons] at hn; omega) h
      exact ⟨c :: g, .ws ((isWs_iff c).1 hw) h1, by rw [h2]; rfl, h3⟩
    | hc l =>
      rw [lexP_com] at h
      rw [List.length_cons] at hn
      cases hc : comP l with
      | eof => rw [hc] at h; cases h
      | err => rw [hc] at h; cases h
      | ok t' r' =>
        rw [hc] at h
        obtain ⟨g, h1, h2, h3⟩ := ih (by have := comP_len hc; omega) h
        obtain ⟨a, h4, h5⟩ := comP_sound hc
        exact ⟨0x2f#8 :: a ++ g, h5.append h1, by rw [h4, h2]; simp, h3⟩
    | hl c l h1 h2 h3 =>
      rw [lexP_long h1 h2 h3] at h
      cases hc : longP c l with
      | eof => rw [hc] at h; cases h
      | err => rw [hc] at h; cases h
      | ok t' r' =>
        rw [hc] at h
        cases h
        obtain ⟨raw, h4, h5⟩ := longP_sound hc
        exact ⟨[], .nil, by rw [upTo_eq h4]; exact h4, by rw [upTo_eq h4]; exact h5⟩

theorem num_head {f : Bool} {raw : List Byte} (h : NumText f raw) : ∃ c y, raw = c :: y ∧ (c = 0x2d#8 ∨ isDigit c = true) := by
  have hd : ∀ {s l : List Byte}, (s = [] ∨ s = [0x2d#8]) → NatText l → ∃ c y, s ++ l = c :: y ∧ (c = 0x2d#8 ∨ isDigit c = true) := by
    rintro s l hs ⟨⟨h1, h2⟩, -⟩
    rcases hs with rfl | rfl
    · cases l with
      | nil => exact absurd rfl h1
      | cons d l => exact ⟨d, l, rfl, Or.inr ((isDigit_iff d).2 (h2 d (by simp)))⟩
    · exact ⟨_, _, rfl, Or.inl rfl⟩
  cases h with
  | int hs hl => exact hd hs hl
  | float hf =>
    obtain ⟨s, int, frac, exp, rfl, hs, h1, -⟩ := hf
    obtain ⟨c, y, e, h⟩ := hd hs h1
    exact ⟨c, y ++ (frac ++ exp), by rw [List.append_assoc, e]; rfl, h⟩

theorem num_first : ∀ c : Byte, (c = 0x2d#8 ∨ isDigit c = true) → single c = none ∧ isWs c = false ∧ c ≠ 0x2f#8 ∧ c ≠ 0x74#8 ∧ c ≠ 0x66#8 ∧ c ≠ 0x6e#8 ∧ c ≠ 0x22#8 := by decide +kernel

theorem lexP_complete {t : Tok} {raw : List Byte} (h : TokText t raw) (r : List Byte) (hr : t = .integer ∨ t = .double → ∃ c r', r = c :: r' ∧ Stop c) : lexP (raw ++ r) = .ok t raw r := by
  have long : ∀ {c : Byte} {y : List Byte}, single c = none → isWs c = false → c ≠ 0x2f#8 → longP c (y ++ r) = .ok t r → lexP (c :: y ++ r) = .ok t (c :: y) r := by
    intro c y h1 h2 h3 h4
    rw [List.cons_append, lexP_long h1 (by simp [h2]) h3, h4]
    simp only [fin]
    rw [upTo_eq (l := c :: (y ++ r)) (raw := c :: y) rfl]
  cases h with
  | single h => exact lexP_single h
  | null => exact long (by decide) (by decide) (by decide) (by
      unfold longP
      rw [if_neg (by decide), if_neg (by decide), if_pos rfl]; exact wordP_complete [0x75#8, 0x6c#8, 0x6c#8] r)
  | tru => exact long (by decide) (by decide) (by decide) (by
      unfold longP
      rw [if_pos rfl]; exact wordP_complete [0x72#8, 0x75#8, 0x65#8] r)
  | fls => exact long (by decide) (by decide) (by decide) (by
      unfold longP
      rw [if_neg (by decide), if_pos rfl]; exact wordP_complete [0x61#8, 0x6c#8, 0x73#8, 0x65#8] r)
  | @str b e hb =>
    refine long (c := 0x22#8) (y := b ++ [0x22#8]) (by decide) (by decide) (by decide) ?_
    unfold longP
    rw [if_neg (by decide), if_neg (by decide), if_neg (by decide), if_pos rfl, List.append_assoc, List.singleton_append, strP_complete hb]
    simp
  | @num f raw hn =>
    obtain ⟨c, y, rfl, hc⟩ := num_head hn
    obtain ⟨c', r', rfl, hs⟩ := hr (by cases f <;> simp [numTok])
    obtain ⟨k1, k2, k3, k4, k5, k6, k7⟩ := num_first c hc
    refine long k1 k2 k3 ?_
    unfold longP
    rw [if_neg k4, if_neg k5, if_neg k6, if_neg k7, if_pos hc]
    exact numP_complete hn hs

end WG.Yajl
