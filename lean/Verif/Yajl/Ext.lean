import Verif.Yajl.Pure
/-! # What the lexer does when the text goes on -/
namespace WG.Yajl
open WG.Recs (Byte)

/-- `r'` is a result for a text that continues by `x` the one with result `r`: a token or error is the same; a token that was not finished does not end before `x`. -/
def Ext (x : List Byte) (r r' : Res) : Prop :=
  match r with
  | .ok t q => r' = .ok t (q ++ x)
  | .err => r' = .err
  | .eof => ∀ t q, r' = .ok t q → q.length ≤ x.length

variable {x l : List Byte}

theorem tailP_ext {p : Byte → Bool} : ∀ (n : Nat) (l : List Byte), Ext x (tailP p n l) (tailP p n (l ++ x))
  | 0, l => rfl
  | n + 1, [] => fun t q h => tailP_len h
  | n + 1, c :: l => by
    rw [List.cons_append, tailP, tailP]
    split_ifs
    · exact tailP_ext n l
    · rfl

theorem utf8P_ext (c : Byte) : Ext x (utf8P c l) (utf8P c (l ++ x)) := by
  unfold utf8P
  split_ifs
  · rfl
  · exact tailP_ext _ _
  · exact tailP_ext _ _
  · exact tailP_ext _ _
  · rfl

theorem strP_nil (e : Bool) : strP [] e = .eof := by rw [strP]

theorem strP_quote (e : Bool) : strP (0x22#8 :: l) e = .ok (if e then .stringEsc else .string) l := by
  rw [strP.eq_def]; dsimp only; rw [if_pos rfl]

theorem strP_bs (e : Bool) : strP [0x5c#8] e = .eof := by
  rw [strP.eq_def]; dsimp only; rw [if_neg (by decide), if_pos rfl]

/-- The ways in which the rest of a string can begin. -/
theorem strP_cases (P : List Byte → Prop) (hn : P []) (hq : ∀ l, P (0x22#8 :: l)) (hb : P [0x5c#8]) (hu : ∀ l, P (0x5c#8 :: 0x75#8 :: l))
    (he : ∀ d l, d ≠ 0x75#8 → P (0x5c#8 :: d :: l)) (hc : ∀ c l, c ≠ 0x22#8 → c ≠ 0x5c#8 → P (c :: l)) (l : List Byte) : P l := by
  rcases l with _ | ⟨c, l⟩
  · exact hn
  · by_cases h1 : c = 0x22#8
    · subst h1; exact hq l
    · by_cases h2 : c = 0x5c#8
      · subst h2
        rcases l with _ | ⟨d, l⟩
        · exact hb
        · by_cases h3 : d = 0x75#8
          · subst h3; exact hu l
          · exact he d l h3
      · exact hc c l h1 h2

theorem strP_len' : ∀ (n : Nat) {l r : List Byte} {t : Tok} {e : Bool}, l.length ≤ n → strP l e = .ok t r → r.length < l.length := by
  intro n
  induction n with
  | zero =>
    intro l r t e hn h
    rw [List.length_eq_zero_iff.1 (Nat.le_zero.1 hn), strP_nil] at h; cases h
  | succ n ih =>
    intro l r t e hn
    induction l using strP_cases with
    | hn => intro h; rw [strP_nil] at h; cases h
    | hq l => intro h; rw [strP_quote] at h; cases h; simp
    | hb => intro h; rw [strP_bs] at h; cases h
    | hu l =>
      intro h
      rw [strP_hex] at h
      simp only [List.length_cons] at hn ⊢
      cases ht : tailP isVHC 4 l with
      | eof => rw [ht] at h; cases h
      | err => rw [ht] at h; cases h
      | ok t r' =>
        rw [ht] at h
        have := tailP_len ht
        have := ih (by omega) h
        omega
    | he d l hd =>
      intro h
      rw [strP_esc hd] at h
      simp only [List.length_cons] at hn ⊢
      split_ifs at h
      have := ih (by omega) h
      omega
    | hc c l h1 h2 =>
      intro h
      rw [strP_char h1 h2] at h
      simp only [List.length_cons] at hn ⊢
      split_ifs at h
      cases ht : utf8P c l with
      | eof => rw [ht] at h; cases h
      | err => rw [ht] at h; cases h
      | ok t r' =>
        rw [ht] at h
        have := utf8P_len ht
        have := ih (by omega) h
        omega

theorem strP_len {r : List Byte} {t : Tok} {e : Bool} (h : strP l e = .ok t r) : r.length < l.length := strP_len' _ (Nat.le_refl _) h

theorem strP_ext' : ∀ (n : Nat) {l : List Byte} {e : Bool}, l.length ≤ n → Ext x (strP l e) (strP (l ++ x) e) := by
  intro n
  induction n with
  | zero =>
    intro l e hn
    rw [List.length_eq_zero_iff.1 (Nat.le_zero.1 hn), strP_nil]
    exact fun t q h => (strP_len h).le
  | succ n ih =>
    intro l e hn
    induction l using strP_cases with
    | hn => rw [strP_nil]; exact fun t q h => (strP_len h).le
    | hq l => rw [strP_quote, List.cons_append, strP_quote]; rfl
    | hb =>
      rw [strP_bs]
      intro t q h
      have := strP_len h
      simp only [List.length_append, List.length_cons, List.length_nil] at this
      omega
    | hu l =>
      rw [List.cons_append, List.cons_append, strP_hex, strP_hex]
      have hx := tailP_ext (x := x) (p := isVHC) 4 l
      simp only [List.length_cons] at hn
      cases ht : tailP isVHC 4 l with
      | eof =>
        rw [ht] at hx
        intro t q h
        cases ht' : tailP isVHC 4 (l ++ x) with
        | eof => rw [ht'] at h; cases h
        | err => rw [ht'] at h; cases h
        | ok t r =>
          rw [ht'] at h
          have := strP_len h
          have := hx _ _ ht'
          omega
      | err => rw [ht] at hx; rw [show tailP isVHC 4 (l ++ x) = .err from hx]; rfl
      | ok t r =>
        rw [ht] at hx; rw [show tailP isVHC 4 (l ++ x) = _ from hx]
        have := tailP_len ht
        exact ih (by omega)
    | he d l hd =>
      rw [List.cons_append, List.cons_append, strP_esc hd, strP_esc hd]
      simp only [List.length_cons] at hn
      split_ifs
      · exact ih (by omega)
      · rfl
    | hc c l h1 h2 =>
      rw [List.cons_append, strP_char h1 h2, strP_char h1 h2]
      simp only [List.length_cons] at hn
      split_ifs
      · rfl
      have hx := utf8P_ext (x := x) (l := l) c
      cases ht : utf8P c l with
      | eof =>
        rw [ht] at hx
        intro t q h
        cases ht' : utf8P c (l ++ x) with
        | eof => rw [ht'] at h; cases h
        | err => rw [ht'] at h; cases h
        | ok t r =>
          rw [ht'] at h
          have := strP_len h
          have := hx _ _ ht'
          omega
      | err => rw [ht] at hx; rw [show utf8P c (l ++ x) = .err from hx]; rfl
      | ok t r =>
        rw [ht] at hx; rw [show utf8P c (l ++ x) = _ from hx]
        have := utf8P_len ht
        exact ih (by omega)

theorem strP_ext (e : Bool) : Ext x (strP l e) (strP (l ++ x) e) := strP_ext' _ (Nat.le_refl _)

/-! ## Numbers -/

theorem drop_len (l : List Byte) : (l.dropWhile isDigit).length ≤ l.length := (List.dropWhile_sublist _).length_le

theorem drop_app (l : List Byte) : (l.dropWhile isDigit = [] ∧ (l ++ x).dropWhile isDigit = x.dropWhile isDigit) ∨
    (l.dropWhile isDigit ≠ [] ∧ (l ++ x).dropWhile isDigit = l.dropWhile isDigit ++ x) := by
  rw [List.dropWhile_append]
  cases h : l.dropWhile isDigit with
  | nil => exact Or.inl ⟨rfl, by simp⟩
  | cons c l => exact Or.inr ⟨by simp, by simp⟩

/-- The digits of the exponent. -/
def expD (l : List Byte) : Res := match l with
  | [] => .eof
  | c :: l => if isDigit c then match l.dropWhile isDigit with
      | [] => .eof
      | d :: r => .ok .double (d :: r)
    else .err

theorem expP_def (l : List Byte) (tok : Tok) : expP l tok = match l with
    | [] => .eof
    | c :: l' => if c = 0x65#8 ∨ c = 0x45#8 then match l' with
        | [] => .eof
        | c :: l'' => if c = 0x2b#8 ∨ c = 0x2d#8 then expD l'' else expD (c :: l'')
      else .ok tok (c :: l') := by
  rw [expP.eq_def]
  rfl

theorem expD_len {r : List Byte} {t : Tok} (h : expD l = .ok t r) : r.length < l.length := by
  cases l with
  | nil => cases h
  | cons c l =>
    rw [expD] at h
    split_ifs at h
    have := drop_len l
    cases hd : l.dropWhile isDigit with
    | nil => rw [hd] at h; cases h
    | cons d r' => rw [hd] at h this; cases h; simp only [List.length_cons] at *; omega

theorem expD_ext : Ext x (expD l) (expD (l ++ x)) := by
  cases l with
  | nil => exact fun t q h => (expD_len h).le
  | cons c l =>
    rw [List.cons_append, expD, expD]
    split_ifs
    · rcases drop_app (x := x) l with ⟨h1, h2⟩ | ⟨h1, h2⟩
      · rw [h1, h2]
        have := drop_len x
        cases hd : x.dropWhile isDigit with
        | nil => intro t q h; cases h
        | cons d r => intro t q h; cases h; rw [hd] at this; exact this
      · rw [h2]
        cases hd : l.dropWhile isDigit with
        | nil => exact absurd hd h1
        | cons d r => rfl
    · rfl

theorem expP_len {r : List Byte} {t tok : Tok} (h : expP l tok = .ok t r) : r.length ≤ l.length := by
  rw [expP_def] at h
  rcases l with _ | ⟨c, _ | ⟨d, l⟩⟩
  · cases h
  · dsimp only at h; split_ifs at h; cases h; exact Nat.le_refl _
  · dsimp only at h
    simp only [List.length_cons]
    split_ifs at h
    · have := expD_len h; omega
    · have := expD_len h; simp only [List.length_cons] at this; omega
    · cases h; simp

theorem expP_ext (tok : Tok) : Ext x (expP l tok) (expP (l ++ x) tok) := by
  rcases l with _ | ⟨c, _ | ⟨d, l⟩⟩
  · exact fun t q h => expP_len h
  · rw [expP_def [c]]
    dsimp only
    split_ifs with h1
    · intro t q h
      rw [List.singleton_append, expP_def] at h
      dsimp only at h
      rw [if_pos h1] at h
      cases x with
      | nil => cases h
      | cons d x =>
        dsimp only at h
        simp only [List.length_cons]
        split_ifs at h
        · have := expD_len h; omega
        · have := expD_len h; simp only [List.length_cons] at this; omega
    · rw [List.singleton_append, expP_def, ]
      dsimp only
      rw [if_neg h1]; rfl
  · rw [List.cons_append, List.cons_append, expP_def, expP_def]
    dsimp only
    split_ifs
    · exact expD_ext
    · exact expD_ext (l := d :: l)
    · rfl

theorem fracP_len {r : List Byte} {t : Tok} (h : fracP l = .ok t r) : r.length ≤ l.length := by
  rw [fracP.eq_def] at h
  rcases l with _ | ⟨c, _ | ⟨d, l⟩⟩
  · cases h
  · dsimp only at h; split_ifs at h; exact expP_len h
  · dsimp only at h
    simp only [List.length_cons]
    split_ifs at h
    · have := expP_len h; have := drop_len l; omega
    · have := expP_len h; simp only [List.length_cons] at this; omega

theorem fracP_ext : Ext x (fracP l) (fracP (l ++ x)) := by
  rcases l with _ | ⟨c, _ | ⟨d, l⟩⟩
  · exact fun t q h => fracP_len h
  · rw [fracP.eq_def [c]]
    dsimp only
    split_ifs with h1
    · intro t q h
      rw [List.singleton_append, fracP.eq_def] at h
      dsimp only at h
      rw [if_pos h1] at h
      cases x with
      | nil => cases h
      | cons d x =>
        dsimp only at h
        simp only [List.length_cons]
        split_ifs at h
        have := expP_len h; have := drop_len x; omega
    · rw [List.singleton_append, fracP.eq_def]
      dsimp only
      rw [if_neg h1]; exact expP_ext (l := [c]) _
  · rw [List.cons_append, List.cons_append, fracP.eq_def, fracP.eq_def]
    dsimp only
    split_ifs
    · rcases drop_app (x := x) l with ⟨h1, h2⟩ | ⟨h1, h2⟩
      · rw [h1, h2, expP_def []]
        intro t q h
        have := expP_len h; have := drop_len x; omega
      · rw [h2]; exact expP_ext _
    · rfl
    · exact expP_ext (l := c :: d :: l) _

theorem intP_len {r : List Byte} {t : Tok} (h : intP l = .ok t r) : r.length < l.length := by
  cases l with
  | nil => cases h
  | cons c l =>
    rw [intP] at h
    simp only [List.length_cons]
    split_ifs at h
    · have := fracP_len h; omega
    · have := fracP_len h; have := drop_len l; omega

theorem intP_ext : Ext x (intP l) (intP (l ++ x)) := by
  cases l with
  | nil => exact fun t q h => (intP_len h).le
  | cons c l =>
    rw [List.cons_append, intP, intP]
    split_ifs
    · exact fracP_ext
    · rcases drop_app (x := x) l with ⟨h1, h2⟩ | ⟨h1, h2⟩
      · rw [h1, h2, fracP]
        intro t q h
        have := fracP_len h; have := drop_len x; omega
      · rw [h2]; exact fracP_ext
    · rfl

theorem numP_len {r : List Byte} {t : Tok} (h : numP l = .ok t r) : r.length < l.length := by
  cases l with
  | nil => cases h
  | cons c l =>
    rw [numP] at h
    simp only [List.length_cons]
    split_ifs at h
    · have := intP_len h; omega
    · exact intP_len h

theorem numP_ext : Ext x (numP l) (numP (l ++ x)) := by
  cases l with
  | nil => exact fun t q h => (numP_len h).le
  | cons c l =>
    rw [List.cons_append, numP, numP]
    split_ifs
    · exact intP_ext
    · exact intP_ext (l := c :: l)

/-! ## Comments and words -/

theorem lineP_ext : ∀ (l : List Byte), Ext x (lineP l) (lineP (l ++ x))
  | [] => fun t q h => lineP_len h
  | c :: l => by
    rw [List.cons_append, lineP, lineP]
    split_ifs
    · rfl
    · exact lineP_ext l

theorem blockP_ext : ∀ (l : List Byte), Ext x (blockP l) (blockP (l ++ x))
  | [] => fun t q h => blockP_len h
  | [c] => by
    rw [blockP.eq_def [c]]
    dsimp only
    split_ifs with h1
    · intro t q h
      rw [List.singleton_append, blockP.eq_def] at h
      dsimp only at h
      rw [if_pos h1] at h
      cases x with
      | nil => cases h
      | cons d x =>
        dsimp only at h
        split_ifs at h
        · cases h; simp
        · exact blockP_len h
    · rw [blockP]
      intro t q h
      rw [List.singleton_append, blockP.eq_def] at h
      dsimp only at h
      rw [if_neg h1] at h
      exact blockP_len h
  | c :: d :: l => by
    rw [List.cons_append, List.cons_append, blockP.eq_def, blockP.eq_def (c :: d :: (l ++ x))]
    dsimp only
    split_ifs
    · rfl
    · exact blockP_ext (d :: l)
    · exact blockP_ext (d :: l)

theorem comP_ext : Ext x (comP l) (comP (l ++ x)) := by
  cases l with
  | nil => exact fun t q h => comP_len h
  | cons c l =>
    rw [List.cons_append, comP, comP]
    split_ifs
    · exact lineP_ext l
    · exact blockP_ext l
    · rfl

theorem wordP_len {t t' : Tok} : ∀ {w l r : List Byte}, wordP t w l = .ok t' r → r.length ≤ l.length
  | [], l, r, h => by rw [wordP] at h; cases h; exact Nat.le_refl _
  | w :: ws, [], r, h => by rw [wordP] at h; cases h
  | w :: ws, c :: l, r, h => by
    rw [wordP] at h
    split_ifs at h
    have := wordP_len h
    simp only [List.length_cons]; omega

theorem wordP_ext {t : Tok} : ∀ (w l : List Byte), Ext x (wordP t w l) (wordP t w (l ++ x))
  | [], l => by rw [wordP, wordP]; rfl
  | w :: ws, [] => by rw [wordP]; exact fun t q h => wordP_len h
  | w :: ws, c :: l => by
    rw [List.cons_append, wordP, wordP]
    split_ifs
    · rfl
    · exact wordP_ext ws l

theorem longP_len {c : Byte} {t : Tok} {r : List Byte} (h : longP c l = .ok t r) : r.length ≤ l.length := by
  unfold longP at h
  split_ifs at h
  · exact wordP_len h
  · exact wordP_len h
  · exact wordP_len h
  · exact (strP_len h).le
  · have := numP_len h; rw [List.length_cons] at this; omega

theorem longP_ext (c : Byte) : Ext x (longP c l) (longP c (l ++ x)) := by
  unfold longP
  split_ifs
  · exact wordP_ext _ _
  · exact wordP_ext _ _
  · exact wordP_ext _ _
  · exact strP_ext _
  · exact numP_ext (l := c :: l)
  · rfl

/-! ## The lexer -/

theorem lexP_nil : lexP [] = .eof [] := by rw [lexP]

theorem lexP_single {c : Byte} {t : Tok} (h : single c = some t) : lexP (c :: l) = .ok t [c] l := by
  rw [lexP.eq_def]; dsimp only; rw [h]

theorem lexP_ws {c : Byte} (h : isWs c = true) : lexP (c :: l) = lexP l := by
  have h1 : single c = none := by
    unfold single
    simp only [isWs, decide_eq_true_eq] at h
    rcases h with rfl | rfl | rfl | rfl | rfl | rfl <;> decide
  rw [lexP.eq_def]; dsimp only; rw [h1]; dsimp only; rw [if_pos h]

theorem lexP_com : lexP (0x2f#8 :: l) = match comP l with
    | .eof => .eof (0x2f#8 :: l)
    | .err => .err
    | .ok _ r => lexP r := by
  rw [lexP.eq_def]
  dsimp only
  rw [show single 0x2f#8 = none by decide]
  dsimp only
  rw [if_neg (by decide), if_pos rfl]
  split <;> rename_i h <;> rw [h]

theorem lexP_long {c : Byte} (h1 : single c = none) (h2 : ¬ isWs c = true) (h3 : c ≠ 0x2f#8) : lexP (c :: l) = fin (c :: l) (longP c l) := by
  rw [lexP.eq_def]; dsimp only; rw [h1]; dsimp only; rw [if_neg h2, if_neg h3]

theorem lexP_cases (P : List Byte → Prop) (hn : P []) (hs : ∀ c t l, single c = some t → P (c :: l)) (hw : ∀ c l, isWs c = true → P (c :: l)) (hc : ∀ l, P (0x2f#8 :: l))
    (hl : ∀ c l, single c = none → ¬ isWs c = true → c ≠ 0x2f#8 → P (c :: l)) (l : List Byte) : P l := by
  rcases l with _ | ⟨c, l⟩
  · exact hn
  · cases h1 : single c with
    | some t => exact hs c t l h1
    | none =>
      by_cases h2 : isWs c = true
      · exact hw c l h2
      · by_cases h3 : c = 0x2f#8
        · subst h3; exact hc l
        · exact hl c l h1 h2 h3

/-- The bytes of an unfinished token or comment. -/
inductive Pend : List Byte → Prop
  | nil : Pend []
  | com {l : List Byte} : comP l = .eof → Pend (0x2f#8 :: l)
  | long {c : Byte} {l : List Byte} : single c = none → ¬ isWs c = true → c ≠ 0x2f#8 → longP c l = .eof → Pend (c :: l)

theorem Pend.lexP {q : List Byte} (h : Pend q) : lexP q = .eof q := by
  cases h with
  | nil => exact lexP_nil
  | com h => rw [lexP_com, h]
  | long h1 h2 h3 h4 => rw [lexP_long h1 h2 h3, h4]; rfl

theorem upTo_app {l r : List Byte} (x : List Byte) : upTo (l ++ x) (r ++ x) = upTo l r := by
  unfold upTo
  rw [List.length_append, List.length_append, List.take_append_of_le_length (by omega)]
  congr 1
  omega

theorem lexP_ext' : ∀ (n : Nat) {l : List Byte}, l.length ≤ n → match lexP l with
    | .eof q => Pend q ∧ q.length ≤ l.length ∧ ∀ x, lexP (l ++ x) = lexP (q ++ x)
    | .err => ∀ x, lexP (l ++ x) = .err
    | .ok t raw r => r.length < l.length ∧ ∀ x, lexP (l ++ x) = .ok t raw (r ++ x) := by
  intro n
  induction n with
  | zero =>
    intro l hn
    rw [List.length_eq_zero_iff.1 (Nat.le_zero.1 hn), lexP_nil]
    exact ⟨.nil, Nat.le_refl _, fun _ => rfl⟩
  | succ n ih =>
    intro l hn
    induction l using lexP_cases with
    | hn => rw [lexP_nil]; exact ⟨.nil, Nat.le_refl _, fun _ => rfl⟩
    | hs c t l h => rw [lexP_single h]; exact ⟨by simp, fun x => by rw [List.cons_append, lexP_single h]⟩
    | hw c l h =>
      rw [List.length_cons] at hn
      have := ih (l := l) (by omega)
      simp only [List.cons_append, lexP_ws h, List.length_cons]
      revert this
      cases lexP l with
      | eof q => rintro ⟨h1, h2, h3⟩; exact ⟨h1, by omega, h3⟩
      | err => exact id
      | ok t raw r => rintro ⟨h1, h2⟩; exact ⟨by omega, h2⟩
    | hc l =>
      rw [List.length_cons] at hn
      rw [lexP_com]
      have hx := fun x => comP_ext (x := x) (l := l)
      cases h : comP l with
      | eof => exact ⟨.com h, Nat.le_refl _, fun _ => rfl⟩
      | err =>
        intro x
        have := hx x
        rw [h] at this
        rw [List.cons_append, lexP_com, show comP (l ++ x) = .err from this]
      | ok t r =>
        have hr := comP_len h
        have := ih (l := r) (by omega)
        have hx' : ∀ x, lexP (0x2f#8 :: l ++ x) = lexP (r ++ x) := by
          intro x
          have := hx x
          rw [h] at this
          rw [List.cons_append, lexP_com, show comP (l ++ x) = .ok t (r ++ x) from this]
        simp only [hx', List.length_cons]
        revert this
        cases lexP r with
        | eof q => rintro ⟨h1, h2, h3⟩; exact ⟨h1, by omega, h3⟩
        | err => exact id
        | ok t raw r' => rintro ⟨h1, h2⟩; exact ⟨by omega, h2⟩
    | hl c l h1 h2 h3 =>
      rw [lexP_long h1 h2 h3]
      have hx := fun x => longP_ext (x := x) (l := l) c
      cases h : longP c l with
      | eof => exact ⟨.long h1 h2 h3 h, Nat.le_refl _, fun _ => rfl⟩
      | err =>
        intro x
        have := hx x
        rw [h] at this
        rw [List.cons_append, lexP_long h1 h2 h3, show longP c (l ++ x) = .err from this]; rfl
      | ok t r =>
        have hr := longP_len h
        refine ⟨by rw [List.length_cons]; omega, fun x => ?_⟩
        have := hx x
        rw [h] at this
        rw [List.cons_append, lexP_long h1 h2 h3, show longP c (l ++ x) = .ok t (r ++ x) from this]
        simp only [fin]
        rw [← List.cons_append, upTo_app]

theorem lexP_eof {q : List Byte} (h : lexP l = .eof q) : Pend q ∧ q.length ≤ l.length ∧ ∀ x, lexP (l ++ x) = lexP (q ++ x) := by
  have := lexP_ext' _ (Nat.le_refl l.length); rwa [h] at this
theorem lexP_err (h : lexP l = .err) : ∀ x, lexP (l ++ x) = .err := by
  have := lexP_ext' _ (Nat.le_refl l.length); rwa [h] at this
theorem lexP_ok {t : Tok} {raw r : List Byte} (h : lexP l = .ok t raw r) : r.length < l.length ∧ ∀ x, lexP (l ++ x) = .ok t raw (r ++ x) := by
  have := lexP_ext' _ (Nat.le_refl l.length); rwa [h] at this

end WG.Yajl
