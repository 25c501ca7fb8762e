import Verif.Yajl.Ext
/-! # yajl_lex_lex computes `lexP` -/
namespace WG.Yajl
open WG.Recs (Byte)

/-- What is passed on of the bytes of a token: a string without its quotes. -/
def body (t : Tok) (raw : List Byte) : List Byte := if t = .string ∨ t = .stringEsc then (raw.drop 1).take (raw.length - 2) else raw

/-- The state in which yajl_lex_lex begins (and begins again after white space and comments). -/
structure Head (x : Lx) : Prop where
  off : x.off ≤ x.text.length
  zero : x.inUse = true → x.bufOff = 0
  pend : x.inUse = true → Pend x.buf
  first : x.inUse = true → x.buf ≠ [] → x.off = 0 ∧ x.text ≠ []

theorem Head.ok {x : Lx} (h : Head x) : x.Ok := by
  refine ⟨h.off, fun hu => by rw [h.zero hu]; omega, fun hu hb => h.first hu ?_⟩
  rintro e
  rw [e, List.length_nil] at hb; omega

theorem Head.rest {x : Lx} (h : Head x) : x.rest = (if x.inUse then x.buf else []) ++ x.text.drop x.off := by
  rw [Lx.rest]
  split_ifs with hu
  · rw [h.zero hu, List.drop_zero]
  · rfl

theorem exhausted {x x' : Lx} (hk' : x'.Ok) (hs : Same x x') (h : x'.rest.length ≤ (x.text.drop x.off).length) : x'.rest = x'.text.drop x'.off := by
  by_cases hb : x'.inUse = true ∧ x'.bufOff < x'.buf.length
  · obtain ⟨h1, h2⟩ := hk'.first hb.1 hb.2
    rw [Lx.rest, if_pos hb.1, h1, List.drop_zero, List.length_append, List.length_drop, List.length_drop, hs.text] at h
    omega
  · rw [Lx.rest]
    split_ifs with hu
    · rw [List.drop_eq_nil_iff.2 (by by_contra hc; exact hb ⟨hu, by omega⟩), List.nil_append]
    · rfl

theorem ahead {x x' : Lx} (hk : Head x) (hk' : x'.Ok) (hs : Same x x') (h : x'.rest.length ≤ (x.text.drop x.off).length) : x.off ≤ x'.off := by
  have := exhausted hk' hs h
  have h1 := hk'.off
  have h2 := hk.off
  rw [this, hs.text, List.length_drop, List.length_drop] at h
  rw [hs.text] at h1
  omega

theorem take_upTo {x x' : Lx} (hk : Head x) (hk' : x'.Ok) (hs : Same x x') (hr : x'.rest = x'.text.drop x'.off) (hle : x.off ≤ x'.off) :
    (if x'.inUse then x'.buf else []) ++ (x'.text.drop x.off).take (x'.off - x.off) = upTo x.rest x'.rest := by
  rw [hr, hk.rest, hs.text, hs.buf, hs.inUse]
  have h1 := hk.off
  have h2 := hk'.off
  rw [hs.text] at h2
  unfold upTo
  rw [List.length_append, List.length_drop, List.length_drop, List.take_append,
    show (if x.inUse then x.buf else []).length + (x.text.length - x.off) - (x.text.length - x'.off) = (if x.inUse then x.buf else []).length + (x'.off - x.off) by omega,
    List.take_of_length_le (l := if x.inUse then x.buf else []) (by omega), Nat.add_sub_cancel_left]

/-- Reading on from `x`: a token. -/
theorem lexed_ok {x x' : Lx} (hk : Head x) (hk' : x'.Ok) (hs : Same x x') {t : Tok} (ht : t ≠ .eof) (ht' : t ≠ .error) (hr : x'.rest = x'.text.drop x'.off) (hle : x.off ≤ x'.off)
    (h2 : t = .string ∨ t = .stringEsc → 2 ≤ (upTo x.rest x'.rest).length) :
    ∃ y, lexed x.off t x' = some (t, body t (upTo x.rest x'.rest), y) ∧ y.inUse = false ∧ y.text = x.text ∧ y.off ≤ y.text.length ∧ y.text.drop y.off = x'.rest := by
  have h := take_upTo hk hk' hs hr hle
  have e : lexed x.off t x' = some (t, body t (upTo x.rest x'.rest), if x'.inUse then { x' with buf := upTo x.rest x'.rest, inUse := false, bufOff := 0 } else x') := by
    unfold lexed body
    by_cases hu : x'.inUse = true
    · rw [if_pos hu] at h
      simp only [ht, hu, if_true, or_true, h, if_false]
      by_cases hst : t = .string ∨ t = .stringEsc
      · rw [if_pos hst, if_pos hst, if_neg (by have := h2 hst; omega)]
      · rw [if_neg hst, if_neg hst]
    · rw [if_neg hu, List.nil_append] at h
      have hu' : x'.inUse = false := by simpa using hu
      simp only [ht, hu', if_false, Bool.false_eq_true, or_false, h, ht']
      by_cases hst : t = .string ∨ t = .stringEsc
      · rw [if_pos hst, if_pos hst, if_neg (by have := h2 hst; omega)]
      · rw [if_neg hst, if_neg hst]
  refine ⟨_, e, ?_⟩
  by_cases hu : x'.inUse = true
  · rw [if_pos hu]
    exact ⟨rfl, hs.text, hk'.off, hr.symm⟩
  · rw [if_neg hu]
    exact ⟨by simpa using hu, hs.text, hk'.off, hr.symm⟩

theorem lexed_eof {x x' : Lx} (hk : Head x) (hk' : x'.Ok) (hs : Same x x') (hr : x'.rest = []) :
    ∃ y, lexed x.off .eof x' = some (.eof, [], y) ∧ y.inUse = true ∧ y.bufOff = 0 ∧ y.buf = x.rest ∧ y.text = x.text ∧ y.off = y.text.length := by
  have hr' : x'.rest = x'.text.drop x'.off := by
    rw [hr, eq_comm, List.drop_eq_nil_iff]
    rw [Lx.rest, List.append_eq_nil_iff, List.drop_eq_nil_iff] at hr
    exact hr.2
  have hoff : x'.off = x'.text.length := by
    have := hk'.off
    rw [hr, eq_comm, List.drop_eq_nil_iff] at hr'
    omega
  have hle : x.off ≤ x'.off := by rw [hoff, hs.text]; exact hk.off
  have h := take_upTo hk hk' hs hr' hle
  rw [hr, upTo, List.length_nil, Nat.sub_zero, List.take_length] at h
  refine ⟨{ x' with buf := x.rest, inUse := true, bufOff := 0 }, ?_, rfl, rfl, rfl, hs.text, hoff⟩
  unfold lexed
  simp only [if_true, true_or, h]
  rw [if_neg (by decide)]

theorem lexed_error {x x' : Lx} (n : Nat) : ∃ raw y, lexed n .error x' = some (.error, raw, y) := by
  unfold lexed
  dsimp only
  rw [if_neg (show ¬ (Tok.error = .string ∨ Tok.error = .stringEsc) by decide)]
  exact ⟨_, _, rfl⟩

/-- The result of yajl_lex_lex from `x` if that of the lexer for the bytes to be read is `r`. -/
def LexSim (x : Lx) (y : Option (Tok × List Byte × Lx)) (r : LexR) : Prop :=
  match r with
  | .eof q => ∃ z, y = some (.eof, [], z) ∧ z.inUse = true ∧ z.bufOff = 0 ∧ z.buf = q ∧ z.text = x.text ∧ z.off = z.text.length
  | .err => ∃ raw z, y = some (.error, raw, z)
  | .ok t raw r => ∃ z, y = some (t, body t raw, z) ∧ z.inUse = false ∧ z.text = x.text ∧ z.off ≤ z.text.length ∧ z.text.drop z.off = r

theorem LexSim.from {x x' : Lx} {y : Option (Tok × List Byte × Lx)} {r : LexR} (h : x'.text = x.text) (hs : LexSim x' y r) : LexSim x y r := by
  cases r with
  | eof q => obtain ⟨z, a, b, c, d, e, f⟩ := hs; exact ⟨z, a, b, c, d, e.trans h, f⟩
  | err => exact hs
  | ok t raw r => obtain ⟨z, a, b, c, d⟩ := hs; exact ⟨z, a, b, c.trans h, d⟩

theorem numP_tok {l r : List Byte} {t : Tok} (h : numP l = .ok t r) : t = .double ∨ t = .integer := by
  have he : ∀ {l r : List Byte}, expD l = .ok t r → t = .double := by
    intro l r h
    cases l with
    | nil => cases h
    | cons c l =>
      rw [expD] at h
      split_ifs at h
      cases hd : l.dropWhile isDigit with
      | nil => rw [hd] at h; cases h
      | cons d r => rw [hd] at h; cases h; rfl
  have hx : ∀ {l r : List Byte} {tok : Tok}, expP l tok = .ok t r → t = .double ∨ t = tok := by
    intro l r tok h
    rw [expP_def] at h
    rcases l with _ | ⟨c, _ | ⟨d, l⟩⟩
    · cases h
    · dsimp only at h; split_ifs at h; cases h; exact Or.inr rfl
    · dsimp only at h
      split_ifs at h
      · exact Or.inl (he h)
      · exact Or.inl (he h)
      · cases h; exact Or.inr rfl
  have hf : ∀ {l r : List Byte}, fracP l = .ok t r → t = .double ∨ t = .integer := by
    intro l r h
    rw [fracP.eq_def] at h
    rcases l with _ | ⟨c, _ | ⟨d, l⟩⟩
    · cases h
    · dsimp only at h; split_ifs at h; exact hx h
    · dsimp only at h
      split_ifs at h
      · exact (hx h).elim Or.inl Or.inl
      · exact hx h
  have hi : ∀ {l r : List Byte}, intP l = .ok t r → t = .double ∨ t = .integer := by
    intro l r h
    cases l with
    | nil => cases h
    | cons c l => rw [intP] at h; split_ifs at h <;> exact hf h
  cases l with
  | nil => cases h
  | cons c l => rw [numP] at h; split_ifs at h <;> exact hi h

theorem comP_tok {l r : List Byte} {t : Tok} (h : comP l = .ok t r) : t = .comment := by
  have h1 : ∀ {l r : List Byte}, lineP l = .ok t r → t = .comment := by
    intro l
    induction l with
    | nil => intro r h; cases h
    | cons c l ih => intro r h; rw [lineP] at h; split_ifs at h; exacts [by cases h; rfl, ih h]
  have h2 : ∀ {l r : List Byte}, blockP l = .ok t r → t = .comment := by
    intro l
    induction l with
    | nil => intro r h; cases h
    | cons c l ih =>
      intro r h
      rw [blockP.eq_def] at h
      dsimp only at h
      split_ifs at h
      · cases l with
        | nil => cases h
        | cons d l => dsimp only at h; split_ifs at h; exacts [by cases h; rfl, ih h]
      · exact ih h
  cases l with
  | nil => cases h
  | cons c l => rw [comP] at h; split_ifs at h; exacts [h1 h, h2 h]

/-- A finished comment ends in the present block. -/
theorem com_in {x : Lx} {l : List Byte} (hk : Head x) (hl : x.rest = 0x2f#8 :: l) {t : Tok} {r : List Byte} (h : comP l = .ok t r) :
    r.length ≤ (x.text.drop x.off).length := by
  by_cases hb : x.inUse = true ∧ x.buf ≠ []
  · have hp := hk.pend hb.1
    rw [hk.rest, if_pos hb.1] at hl
    cases hq : x.buf with
    | nil => exact absurd hq hb.2
    | cons d q =>
      rw [hq] at hp hl
      rw [List.cons_append, List.cons.injEq] at hl
      obtain ⟨rfl, rfl⟩ := hl
      cases hp with
      | com he =>
        have := comP_ext (x := x.text.drop x.off) (l := q)
        rw [he] at this
        exact this _ _ h
      | long _ _ h3 he => exact absurd rfl h3
  · have hr : x.rest = x.text.drop x.off := by
      rw [hk.rest]
      split_ifs with hu
      · rw [show x.buf = [] by by_contra hc; exact hb ⟨hu, hc⟩, List.nil_append]
      · rfl
    rw [← hr, hl, List.length_cons]
    have := comP_len h
    omega

theorem longP_str {c : Byte} {l r : List Byte} {t : Tok} (h : longP c l = .ok t r) (ht : t = .string ∨ t = .stringEsc) : r.length < l.length := by
  have hw : ∀ {t' : Tok} {w l r : List Byte}, wordP t' w l = .ok t r → t = t' := by
    intro t' w
    induction w with
    | nil => intro l r h; rw [wordP] at h; cases h; rfl
    | cons a w ih =>
      intro l r h
      cases l with
      | nil => rw [wordP] at h; cases h
      | cons c l => rw [wordP] at h; split_ifs at h; exact ih h
  unfold longP at h
  split_ifs at h with h1 h2 h3 h4 h5
  · rw [hw h] at ht; exact absurd ht (by decide)
  · rw [hw h] at ht; exact absurd ht (by decide)
  · rw [hw h] at ht; exact absurd ht (by decide)
  · exact strP_len h
  · rcases numP_tok h with rfl | rfl <;> exact absurd ht (by decide)

theorem longP_tok {c : Byte} {l r : List Byte} {t : Tok} (h : longP c l = .ok t r) : t ≠ .eof ∧ t ≠ .error := by
  have hw : ∀ {t' : Tok} {w l r : List Byte}, wordP t' w l = .ok t r → t = t' := by
    intro t' w
    induction w with
    | nil => intro l r h; rw [wordP] at h; cases h; rfl
    | cons a w ih =>
      intro l r h
      cases l with
      | nil => rw [wordP] at h; cases h
      | cons c l => rw [wordP] at h; split_ifs at h; exact ih h
  have hst : ∀ (n : Nat) {l r : List Byte} {e : Bool}, l.length ≤ n → strP l e = .ok t r → t = .string ∨ t = .stringEsc := by
    intro n
    induction n with
    | zero => intro l r e hn h; rw [List.length_eq_zero_iff.1 (Nat.le_zero.1 hn), strP_nil] at h; cases h
    | succ n ih =>
      intro l r e hn
      induction l using strP_cases with
      | hn => intro h; rw [strP_nil] at h; cases h
      | hq l => intro h; rw [strP_quote] at h; cases h; cases e <;> simp
      | hb => intro h; rw [strP_bs] at h; cases h
      | hu l =>
        intro h
        rw [strP_hex] at h
        simp only [List.length_cons] at hn
        cases ht : tailP isVHC 4 l with
        | eof => rw [ht] at h; cases h
        | err => rw [ht] at h; cases h
        | ok t r' => rw [ht] at h; have := tailP_len ht; exact ih (by omega) h
      | he d l hd =>
        intro h
        rw [strP_esc hd] at h
        simp only [List.length_cons] at hn
        split_ifs at h
        exact ih (by omega) h
      | hc c l h1 h2 =>
        intro h
        rw [strP_char h1 h2] at h
        simp only [List.length_cons] at hn
        split_ifs at h
        cases ht : utf8P c l with
        | eof => rw [ht] at h; cases h
        | err => rw [ht] at h; cases h
        | ok t r' => rw [ht] at h; have := utf8P_len ht; exact ih (by omega) h
  by_cases hs : t = .string ∨ t = .stringEsc
  · rcases hs with rfl | rfl <;> decide
  unfold longP at h
  split_ifs at h with h1 h2 h3 h4 h5
  · rw [hw h]; decide
  · rw [hw h]; decide
  · rw [hw h]; decide
  · exact absurd (hst _ (Nat.le_refl _) h) hs
  · have := numP_tok h
    rcases this with rfl | rfl <;> decide

/-- A finished token ends in the present block. -/
theorem long_in {x : Lx} {c : Byte} {l : List Byte} (hk : Head x) (hl : x.rest = c :: l) (h1 : single c = none) (h2 : ¬ isWs c = true) (h3 : c ≠ 0x2f#8) {t : Tok} {r : List Byte}
    (h : longP c l = .ok t r) : r.length ≤ (x.text.drop x.off).length := by
  by_cases hb : x.inUse = true ∧ x.buf ≠ []
  · have hp := hk.pend hb.1
    rw [hk.rest, if_pos hb.1] at hl
    cases hq : x.buf with
    | nil => exact absurd hq hb.2
    | cons d q =>
      rw [hq] at hp hl
      rw [List.cons_append, List.cons.injEq] at hl
      obtain ⟨rfl, rfl⟩ := hl
      cases hp with
      | com _ => exact absurd rfl h3
      | long _ _ _ he =>
        have := longP_ext (x := x.text.drop x.off) (l := q) d
        rw [he] at this
        exact this _ _ h
  · have hr : x.rest = x.text.drop x.off := by
      rw [hk.rest]
      split_ifs with hu
      · rw [show x.buf = [] by by_contra hc; exact hb ⟨hu, hc⟩, List.nil_append]
      · rfl
    rw [← hr, hl, List.length_cons]
    have := longP_len h
    omega

/-- A result of one of the parts, passed to `lexed`. -/
theorem fin_ok {x x1 : Lx} {c : Byte} {l : List Byte} (hk : Head x) (hl : x.rest = c :: l) (hs : Same x x1) (h1 : single c = none) (h2 : ¬ isWs c = true) (h3 : c ≠ 0x2f#8)
    {y : Option (Tok × Lx)} (h : Sim x1 y (longP c l)) :
    LexSim x (match (generalizing := false) y with | none => none | some (t, x') => lexed x.off t x') (fin (c :: l) (longP c l)) := by
  cases hr : longP c l with
  | eof =>
    rw [hr] at h
    obtain ⟨x', e1, e2, e3, e4⟩ := h
    subst e1
    obtain ⟨z, f1, f2, f3, f4, f5, f6⟩ := lexed_eof hk e2 (hs.trans e4) e3
    exact ⟨z, f1, f2, f3, f4.trans hl, f5, f6⟩
  | err =>
    rw [hr] at h
    obtain ⟨x', e1, e2, e3⟩ := h
    subst e1
    exact lexed_error (x := x) _
  | ok t r =>
    rw [hr] at h
    obtain ⟨x', e1, e2, e3, e4⟩ := h
    subst e1
    have hin := long_in hk hl h1 h2 h3 hr
    rw [← e3] at hin
    have := longP_tok hr
    obtain ⟨z, f1, f2, f3, f4, f5⟩ := lexed_ok hk e2 (hs.trans e4) this.1 this.2 (exhausted e2 (hs.trans e4) hin) (ahead hk e2 (hs.trans e4) hin) (fun ht => by
      have := longP_str hr ht
      rw [e3, hl, upTo, List.length_take, List.length_cons]; omega)
    refine ⟨z, ?_, f2, f3, f4, f5.trans e3⟩
    dsimp only
    rw [f1, e3, hl]

theorem Head.of_ok {x : Lx} (h : x.Ok) (hb : x.inUse = true → x.buf = []) : Head x :=
  ⟨h.off, fun hu => by have := h.buf hu; rw [hb hu, List.length_nil] at this; omega, fun hu => by rw [hb hu]; exact .nil, fun hu hc => absurd (hb hu) hc⟩

/-- White space and tokens of one byte are not in the buffer. -/
theorem not_pend {x : Lx} {c : Byte} {l : List Byte} (hk : Head x) (hl : x.rest = c :: l) (hc : single c ≠ none ∨ isWs c = true) (hu : x.inUse = true) : x.buf = [] := by
  by_contra hb
  rw [hk.rest, if_pos hu] at hl
  have hp := hk.pend hu
  cases hq : x.buf with
  | nil => exact hb hq
  | cons d q =>
    rw [hq] at hp hl
    rw [List.cons_append, List.cons.injEq] at hl
    obtain ⟨rfl, rfl⟩ := hl
    cases hp with
    | com _ => revert hc; decide
    | long h1 h2 h3 he => rcases hc with hc | hc; exacts [hc h1, h2 hc]

theorem lexLex_ok : ∀ (n : Nat) {x : Lx}, Head x → x.rest.length < n → LexSim x (lexLex n x.off x) (lexP x.rest)
  | 0, x, _, h => by omega
  | n + 1, x, hk, hn => by
    rw [lexLex]
    cases hl : x.rest with
    | nil =>
      rw [if_pos (eof_of hk.ok hl), lexP_nil]
      obtain ⟨z, f1, f2, f3, f4, f5, f6⟩ := lexed_eof hk hk.ok (Same.refl x) hl
      exact ⟨z, f1, f2, f3, f4.trans hl, f5, f6⟩
    | cons c l =>
      rw [hl, List.length_cons] at hn
      obtain ⟨x1, g1, g2⟩ := read_ok' hk.ok hl
      rw [if_neg (not_eof hk.ok (by rw [hl]; simp)), g1]
      dsimp only
      have hsingle : ∀ t, single c = some t → t ≠ .eof → t ≠ .error → t ≠ .string → t ≠ .stringEsc → LexSim x (lexed x.off t x1) (lexP (c :: l)) := by
        intro t ht a1 a2 a3 a4
        rw [lexP_single ht]
        have hb := not_pend hk hl (Or.inl (by rw [ht]; simp))
        have hin : x1.rest.length ≤ (x.text.drop x.off).length := by
          have : x.rest = x.text.drop x.off := by
            rw [hk.rest]; split_ifs with hu
            · rw [hb hu, List.nil_append]
            · rfl
          rw [← this, hl, g2.rest, List.length_cons]; omega
        obtain ⟨z, f1, f2, f3, f4, f5⟩ := lexed_ok hk g2.ok g2.same a1 a2 (exhausted g2.ok g2.same hin) (ahead hk g2.ok g2.same hin) (t := t) (fun ht => by
          rcases ht with h | h; exacts [absurd h a3, absurd h a4])
        refine ⟨z, ?_, f2, f3, f4, f5.trans g2.rest⟩
        rw [f1, hl, g2.rest, upTo, List.length_cons, Nat.add_sub_cancel_left]; rfl
      by_cases c1 : c = 0x7b#8
      · rw [if_pos c1]; exact hsingle .lcurly (by rw [c1]; decide) (by decide) (by decide) (by decide) (by decide)
      rw [if_neg c1]
      by_cases c2 : c = 0x7d#8
      · rw [if_pos c2]; exact hsingle .rcurly (by rw [c2]; decide) (by decide) (by decide) (by decide) (by decide)
      rw [if_neg c2]
      by_cases c3 : c = 0x5b#8
      · rw [if_pos c3]; exact hsingle .lsquare (by rw [c3]; decide) (by decide) (by decide) (by decide) (by decide)
      rw [if_neg c3]
      by_cases c4 : c = 0x5d#8
      · rw [if_pos c4]; exact hsingle .rsquare (by rw [c4]; decide) (by decide) (by decide) (by decide) (by decide)
      rw [if_neg c4]
      by_cases c5 : c = 0x2c#8
      · rw [if_pos c5]; exact hsingle .comma (by rw [c5]; decide) (by decide) (by decide) (by decide) (by decide)
      rw [if_neg c5]
      by_cases c6 : c = 0x3a#8
      · rw [if_pos c6]; exact hsingle .colon (by rw [c6]; decide) (by decide) (by decide) (by decide) (by decide)
      rw [if_neg c6]
      have hs : single c = none := by unfold single; rw [if_neg c1, if_neg c2, if_neg c3, if_neg c4, if_neg c5, if_neg c6]
      by_cases hw : isWs c = true
      · rw [if_pos (by simpa [isWs] using hw), lexP_ws hw]
        have hb := not_pend hk hl (Or.inr hw)
        have hr : x.rest = x.text.drop x.off := by
          rw [hk.rest]; split_ifs with hu
          · rw [hb hu, List.nil_append]
          · rfl
        have hin : x1.rest.length ≤ (x.text.drop x.off).length := by
          rw [← hr, hl, g2.rest, List.length_cons]; omega
        have hr1 := exhausted g2.ok g2.same hin
        have ho : x1.off = x.off + 1 := by
          have e1 := congrArg List.length hr
          have e2 := congrArg List.length hr1
          have := hk.off
          have := g2.ok.off
          rw [hl, List.length_cons, List.length_drop] at e1
          rw [g2.rest, List.length_drop, g2.same.text] at e2
          rw [g2.same.text] at this
          omega
        have hk1 : Head x1 := Head.of_ok g2.ok (fun hu => by rw [g2.same.buf]; exact hb (by rw [← g2.same.inUse]; exact hu))
        rw [← ho, ← g2.rest]
        exact (lexLex_ok n hk1 (by rw [g2.rest]; omega)).from g2.same.text
      rw [if_neg (by simpa [isWs] using hw)]
      by_cases c7 : c = 0x2f#8
      · subst c7
        rw [if_neg (by decide), if_neg (by decide), if_neg (by decide), if_neg (by decide), if_neg (by decide), if_pos rfl, lexP_com]
        have hsim := lexComment_ok (n := n) g2.ok (by rw [g2.rest]; omega)
        rw [g2.rest] at hsim
        cases hc : comP l with
        | eof =>
          rw [hc] at hsim
          obtain ⟨x', e1, e2, e3, e4⟩ := hsim
          rw [e1]
          obtain ⟨z, f1, f2, f3, f4, f5, f6⟩ := lexed_eof hk e2 (g2.same.trans e4) e3
          exact ⟨z, f1, f2, f3, f4.trans hl, f5, f6⟩
        | err =>
          rw [hc] at hsim
          obtain ⟨x', e1, e2, e3⟩ := hsim
          rw [e1]
          exact lexed_error (x := x) _
        | ok t r =>
          rw [hc] at hsim
          obtain ⟨x', e1, e2, e3, e4⟩ := hsim
          rw [comP_tok hc] at e1
          rw [e1]
          dsimp only
          have hin : r.length ≤ (x.text.drop x.off).length := com_in hk hl hc
          rw [← e3] at hin
          have hr1 := exhausted e2 (g2.same.trans e4) hin
          have hk1 : Head { x' with buf := [], inUse := false } := ⟨e2.off, by simp, by simp, by simp⟩
          have hr2 : ({ x' with buf := [], inUse := false } : Lx).rest = r := by rw [hk1.rest, ← e3, hr1]; simp
          have := lexLex_ok n hk1 (by rw [hr2]; have := comP_len hc; omega)
          rw [hr2] at this
          exact this.from (e4.text.trans g2.same.text)
      · rw [lexP_long hs hw c7]
        have key := fun y h => fin_ok (y := y) hk hl g2.same hs hw c7 h
        have key0 := fun y h => fin_ok (y := y) hk hl (Same.refl x) hs hw c7 h
        unfold longP at key key0 ⊢
        by_cases d1 : c = 0x74#8
        · simp only [if_pos d1] at key ⊢
          exact key _ (by rw [← g2.rest]; exact lexWord_ok _ _ g2.ok)
        simp only [if_neg d1] at key key0 ⊢
        by_cases d2 : c = 0x66#8
        · simp only [if_pos d2] at key ⊢
          exact key _ (by rw [← g2.rest]; exact lexWord_ok _ _ g2.ok)
        simp only [if_neg d2] at key key0 ⊢
        by_cases d3 : c = 0x6e#8
        · simp only [if_pos d3] at key ⊢
          exact key _ (by rw [← g2.rest]; exact lexWord_ok _ _ g2.ok)
        simp only [if_neg d3] at key key0 ⊢
        by_cases d4 : c = 0x22#8
        · simp only [if_pos d4] at key ⊢
          exact key _ (by rw [← g2.rest]; exact lexString_ok n false g2.ok (by rw [g2.rest]; omega))
        simp only [if_neg d4] at key key0 ⊢
        by_cases d5 : c = 0x2d#8 ∨ isDigit c = true
        · simp only [if_pos d5] at key0 ⊢
          rw [g2.back]
          exact key0 (lexNumber n x) (by rw [← hl]; exact lexNumber_ok hk.ok (by rw [hl, List.length_cons]; omega))
        simp only [if_neg d5, if_neg c7, fin] at key ⊢
        exact lexed_error (x := x) _

end WG.Yajl
