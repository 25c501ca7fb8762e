import Verif.Yajl.Model
import Mathlib.Tactic.SplitIfs
import Mathlib.Data.List.TakeWhile
/-!
# The lexer as a function of the bytes not yet read

`lexP` describes what yajl_lex_lex does with the bytes it has still to read, those of its own buffer followed by those of the present block. `lexLex_ok` shows that the
model of the code, with its buffer and offsets, computes exactly this.
-/
namespace WG.Yajl
open WG.Recs (Byte)

/-- Result of a part of the lexer: end of the text, error, or a token and what follows it. -/
inductive Res
  | eof | err | ok (t : Tok) (rest : List Byte)

/-- `n` bytes with the property `p`. -/
def tailP (p : Byte → Bool) : Nat → List Byte → Res
  | 0, l => .ok .string l
  | _ + 1, [] => .eof
  | n + 1, c :: l => if p c then tailP p n l else .err

def isCont (c : Byte) : Bool := c >>> 6 = 2#8

/-- The rest of a UTF-8 sequence that begins with `c`. -/
def utf8P (c : Byte) (l : List Byte) : Res :=
  if c ≤ 0x7f#8 then .ok .string l
  else if c >>> 5 = 6#8 then tailP isCont 1 l
  else if c >>> 4 = 0x0e#8 then tailP isCont 2 l
  else if c >>> 3 = 0x1e#8 then tailP isCont 3 l
  else .err

theorem tailP_len {p : Byte → Bool} : ∀ {n : Nat} {l r : List Byte} {t : Tok}, tailP p n l = .ok t r → r.length ≤ l.length
  | 0, l, r, t, h => by cases h; exact Nat.le_refl _
  | n + 1, [], r, t, h => by cases h
  | n + 1, c :: l, r, t, h => by
    rw [tailP] at h
    split_ifs at h
    have := tailP_len h
    simp only [List.length_cons]; omega

theorem utf8P_len {c : Byte} {l r : List Byte} {t : Tok} (h : utf8P c l = .ok t r) : r.length ≤ l.length := by
  unfold utf8P at h
  split_ifs at h
  · cases h; exact Nat.le_refl _
  all_goals exact tailP_len h

/-- The rest of a string. -/
def strP (l : List Byte) (esc : Bool) : Res :=
  match l with
  | [] => .eof
  | c :: l =>
    if c = 0x22#8 then .ok (if esc then .stringEsc else .string) l
    else if c = 0x5c#8 then match l with
      | [] => .eof
      | d :: l =>
        if d = 0x75#8 then match h : tailP isVHC 4 l with
          | .ok _ r => strP r true
          | .eof => .eof
          | .err => .err
        else if isVEC d then strP l true
        else .err
    else if isIJC c then .err
    else match h : utf8P c l with
      | .ok _ r => strP r esc
      | .eof => .eof
      | .err => .err
termination_by l.length
decreasing_by
  · have := tailP_len h; simp only [List.length_cons]; omega
  · simp only [List.length_cons]; omega
  · have := utf8P_len h; simp only [List.length_cons]; omega

/-- The exponent. -/
def expP (l : List Byte) (tok : Tok) : Res :=
  match l with
  | [] => .eof
  | c :: l' =>
    if c = 0x65#8 ∨ c = 0x45#8 then
      let digits (l : List Byte) : Res := match l with
        | [] => .eof
        | c :: l => if isDigit c then match l.dropWhile isDigit with
            | [] => .eof
            | d :: r => .ok .double (d :: r)
          else .err
      match l' with
      | [] => .eof
      | c :: l'' => if c = 0x2b#8 ∨ c = 0x2d#8 then digits l'' else digits (c :: l'')
    else .ok tok (c :: l')

/-- The fraction. -/
def fracP (l : List Byte) : Res :=
  match l with
  | [] => .eof
  | c :: l' =>
    if c = 0x2e#8 then match l' with
      | [] => .eof
      | c :: l => if isDigit c then expP (l.dropWhile isDigit) .double else .err
    else expP (c :: l') .integer

/-- The integer part. -/
def intP (l : List Byte) : Res :=
  match l with
  | [] => .eof
  | c :: l => if c = 0x30#8 then fracP l else if 0x31#8 ≤ c ∧ c ≤ 0x39#8 then fracP (l.dropWhile isDigit) else .err

/-- A number. -/
def numP (l : List Byte) : Res :=
  match l with
  | [] => .eof
  | c :: l' => if c = 0x2d#8 then intP l' else intP (c :: l')

/-- The rest of a comment to the end of the line. -/
def lineP : List Byte → Res
  | [] => .eof
  | c :: l => if c = 0x0a#8 then .ok .comment l else lineP l

/-- The rest of a comment in `/* */`. -/
def blockP : List Byte → Res
  | [] => .eof
  | c :: l =>
    if c = 0x2a#8 then match l with
      | [] => .eof
      | d :: r => if d = 0x2f#8 then .ok .comment r else blockP l
    else blockP l

/-- The rest of a comment. -/
def comP (l : List Byte) : Res :=
  match l with
  | [] => .eof
  | c :: l => if c = 0x2f#8 then lineP l else if c = 0x2a#8 then blockP l else .err

/-- The rest of a word. -/
def wordP (t : Tok) : List Byte → List Byte → Res
  | [], l => .ok t l
  | _ :: _, [] => .eof
  | w :: want, c :: l => if c ≠ w then .err else wordP t want l

theorem lineP_len : ∀ {l r : List Byte} {t : Tok}, lineP l = .ok t r → r.length ≤ l.length
  | [], r, t, h => by cases h
  | c :: l, r, t, h => by
    rw [lineP] at h
    simp only [List.length_cons]
    split_ifs at h
    · cases h; omega
    · have := lineP_len h; omega

theorem blockP_len : ∀ {l r : List Byte} {t : Tok}, blockP l = .ok t r → r.length ≤ l.length
  | [], r, t, h => by cases h
  | [c], r, t, h => by
    rw [blockP] at h
    split_ifs at h
    have := blockP_len h
    simp only [List.length_cons]; omega
  | c :: d :: l, r, t, h => by
    rw [blockP] at h
    simp only [List.length_cons]
    split_ifs at h
    · cases h; omega
    all_goals have := blockP_len h; simp only [List.length_cons] at this; omega

theorem comP_len {l r : List Byte} {t : Tok} (h : comP l = .ok t r) : r.length ≤ l.length := by
  cases l with
  | nil => cases h
  | cons c l =>
    rw [comP] at h
    simp only [List.length_cons]
    split_ifs at h
    · have := lineP_len h; omega
    · have := blockP_len h; omega

/-- Result of the lexer: end of the text with the bytes of an unfinished token or comment, error, or a token with its bytes and what follows. -/
inductive LexR
  | eof (q : List Byte) | err | ok (t : Tok) (raw rest : List Byte)

/-- `l` less its end `r`. -/
def upTo (l r : List Byte) : List Byte := l.take (l.length - r.length)

/-- A result for the text `l`. -/
def fin (l : List Byte) : Res → LexR
  | .eof => .eof l
  | .err => .err
  | .ok t r => .ok t (upTo l r) r

def isWs (c : Byte) : Bool := c = 0x09#8 ∨ c = 0x0a#8 ∨ c = 0x0b#8 ∨ c = 0x0c#8 ∨ c = 0x0d#8 ∨ c = 0x20#8

/-- The tokens of one byte. -/
def single (c : Byte) : Option Tok :=
  if c = 0x7b#8 then some .lcurly else if c = 0x7d#8 then some .rcurly else if c = 0x5b#8 then some .lsquare else if c = 0x5d#8 then some .rsquare
  else if c = 0x2c#8 then some .comma else if c = 0x3a#8 then some .colon else none

/-- A token that begins with `c` and does not consist of it alone. -/
def longP (c : Byte) (l : List Byte) : Res :=
  if c = 0x74#8 then wordP .bool [0x72#8, 0x75#8, 0x65#8] l
  else if c = 0x66#8 then wordP .bool [0x61#8, 0x6c#8, 0x73#8, 0x65#8] l
  else if c = 0x6e#8 then wordP .null [0x75#8, 0x6c#8, 0x6c#8] l
  else if c = 0x22#8 then strP l false
  else if c = 0x2d#8 ∨ isDigit c = true then numP (c :: l)
  else .err

/-- The lexer. -/
def lexP (l : List Byte) : LexR :=
  match l with
  | [] => .eof []
  | c :: l =>
    match single c with
    | some t => .ok t [c] l
    | none =>
      if isWs c then lexP l
      else if c = 0x2f#8 then match h : comP l with
        | .eof => .eof (c :: l)
        | .err => .err
        | .ok _ r => lexP r
      else fin (c :: l) (longP c l)
termination_by l.length
decreasing_by
  · simp only [List.length_cons]; omega
  · have := comP_len h; simp only [List.length_cons]; omega

/-! ## The reader -/

/-- The bytes still to be read. -/
def Lx.rest (x : Lx) : List Byte := (if x.inUse then x.buf.drop x.bufOff else []) ++ x.text.drop x.off

structure Lx.Ok (x : Lx) : Prop where
  off : x.off ≤ x.text.length
  buf : x.inUse = true → x.bufOff ≤ x.buf.length
  first : x.inUse = true → x.bufOff < x.buf.length → x.off = 0 ∧ x.text ≠ []

structure Same (x x' : Lx) : Prop where
  text : x'.text = x.text
  buf : x'.buf = x.buf
  inUse : x'.inUse = x.inUse

theorem Same.refl (x : Lx) : Same x x := ⟨rfl, rfl, rfl⟩
theorem Same.trans {x y z : Lx} (h1 : Same x y) (h2 : Same y z) : Same x z := ⟨h2.text.trans h1.text, h2.buf.trans h1.buf, h2.inUse.trans h1.inUse⟩

variable {x x' : Lx} {c : Byte} {l : List Byte}

theorem eof_of (hk : x.Ok) (hl : x.rest = []) : x.eof = true := by
  rw [Lx.rest, List.append_eq_nil_iff, List.drop_eq_nil_iff] at hl
  simp [Lx.eof, hl.2]

theorem not_eof (hk : x.Ok) (hl : x.rest ≠ []) : ¬ x.eof = true := by
  intro he
  simp only [Lx.eof, decide_eq_true_eq] at he
  apply hl
  rw [Lx.rest, List.append_eq_nil_iff, List.drop_eq_nil_iff]
  refine ⟨?_, he⟩
  split_ifs with hu
  · rw [List.drop_eq_nil_iff]
    by_contra hb
    obtain ⟨h1, h2⟩ := hk.first hu (by omega)
    have := List.length_pos_iff.2 h2
    omega
  · rfl

/-- Reading: the next byte; going back restores the state. -/
theorem read_ok (hk : x.Ok) (hl : x.rest = c :: l) : ∃ x', x.read = some (c, x') ∧ x'.Ok ∧ x'.rest = l ∧ Same x x' ∧ x'.unread = some x := by
  unfold Lx.read
  by_cases hb : x.inUse = true ∧ x.bufOff < x.buf.length
  · obtain ⟨h1, h2⟩ := hb
    obtain ⟨h3, h4⟩ := hk.first h1 h2
    rw [if_pos ⟨h1, h2⟩]
    have hl' := hl
    rw [Lx.rest, if_pos h1, List.drop_eq_getElem_cons h2, List.cons_append, List.cons.injEq] at hl'
    refine ⟨{ x with bufOff := x.bufOff + 1 }, ?_, ⟨hk.off, fun _ => Nat.succ_le_of_lt h2, fun _ _ => ⟨h3, h4⟩⟩, ?_, ⟨rfl, rfl, rfl⟩, ?_⟩
    · rw [List.getElem?_eq_getElem h2]; simp [hl'.1]
    · rw [Lx.rest, if_pos h1]; exact hl'.2
    · rw [Lx.unread]
      simp [h3]
      cases x; simp_all
  · rw [if_neg hb]
    have hnil : (if x.inUse then x.buf.drop x.bufOff else []) = [] := by
      split_ifs with hu
      · rw [List.drop_eq_nil_iff]
        by_contra h; exact hb ⟨hu, by omega⟩
      · rfl
    have hl' := hl
    rw [Lx.rest, hnil, List.nil_append] at hl'
    have hlt : x.off < x.text.length := by
      by_contra h
      rw [List.drop_eq_nil_iff.2 (by omega)] at hl'; cases hl'
    rw [List.drop_eq_getElem_cons hlt, List.cons.injEq] at hl'
    refine ⟨{ x with off := x.off + 1 }, ?_, ⟨Nat.succ_le_of_lt hlt, hk.buf, fun h1 h2 => absurd ⟨h1, h2⟩ hb⟩, ?_, ⟨rfl, rfl, rfl⟩, ?_⟩
    · rw [List.getElem?_eq_getElem hlt]; simp [hl'.1]
    · rw [Lx.rest]
      simp only [hnil, List.nil_append]; exact hl'.2
    · simp [Lx.unread]

def ordinary (c : Byte) : Bool := !isIJC c && !isNUC c

theorem scan_split (l : List Byte) : ∃ a, l = a ++ l.drop (scan l) ∧ ∀ c ∈ a, ordinary c = true := by
  refine ⟨l.takeWhile ordinary, ?_, fun c hc => List.mem_takeWhile_imp hc⟩
  have h : l.drop (scan l) = l.dropWhile ordinary := by
    conv_lhs => rw [← List.takeWhile_append_dropWhile (p := ordinary) (l := l)]
    rw [show scan (l.takeWhile ordinary ++ l.dropWhile ordinary) = (l.takeWhile ordinary).length by
      rw [List.takeWhile_append_dropWhile]; rfl, List.drop_left]
  rw [h, List.takeWhile_append_dropWhile]

theorem skip_ok (hk : x.Ok) : x.skip.Ok ∧ Same x x.skip ∧ ∃ a, x.rest = a ++ x.skip.rest ∧ ∀ c ∈ a, ordinary c = true := by
  unfold Lx.skip
  by_cases hb : x.inUse = true ∧ x.bufOff < x.buf.length
  · obtain ⟨h1, h2⟩ := hb
    obtain ⟨h3, h4⟩ := hk.first h1 h2
    rw [if_pos ⟨h1, h2⟩]
    obtain ⟨a, ha, hb⟩ := scan_split (x.buf.drop x.bufOff)
    have hs : scan (x.buf.drop x.bufOff) ≤ x.buf.length - x.bufOff := by
      rw [← List.length_drop]; exact (List.takeWhile_sublist _).length_le
    refine ⟨⟨hk.off, fun _ => by simp only; omega, fun _ _ => ⟨h3, h4⟩⟩, ⟨rfl, rfl, rfl⟩, a, ?_, hb⟩
    simp only [Lx.rest, h1, if_true]
    conv_lhs => rw [ha]
    rw [List.append_assoc, List.drop_drop]
  · rw [if_neg hb]
    split_ifs with hlt
    · obtain ⟨a, ha, hb'⟩ := scan_split (x.text.drop x.off)
      have hs : scan (x.text.drop x.off) ≤ x.text.length - x.off := by
        rw [← List.length_drop]; exact (List.takeWhile_sublist _).length_le
      refine ⟨⟨by simp only; omega, hk.buf, fun h1 h2 => absurd ⟨h1, h2⟩ hb⟩, ⟨rfl, rfl, rfl⟩, a, ?_, hb'⟩
      have hnil : (if x.inUse then x.buf.drop x.bufOff else []) = [] := by
        split_ifs with hu
        · rw [List.drop_eq_nil_iff]
          by_contra h; exact hb ⟨hu, by omega⟩
        · rfl
      simp only [Lx.rest, hnil, List.nil_append]
      rw [List.drop_drop] at ha
      exact ha
    · exact ⟨hk, Same.refl _, [], by simp, by simp⟩

/-! ## The parts of the lexer -/

/-- `y` is what the code does from `x` if the result for the bytes to be read is `r`. -/
def Sim (x : Lx) (y : Option (Tok × Lx)) (r : Res) : Prop :=
  match r with
  | .eof => ∃ x', y = some (.eof, x') ∧ x'.Ok ∧ x'.rest = [] ∧ Same x x'
  | .err => ∃ x', y = some (.error, x') ∧ x'.Ok ∧ Same x x'
  | .ok t rest => ∃ x', y = some (t, x') ∧ x'.Ok ∧ x'.rest = rest ∧ Same x x'

theorem Sim.from {y : Option (Tok × Lx)} {r : Res} (hs : Same x x') (h : Sim x' y r) : Sim x y r := by
  cases r with
  | eof => obtain ⟨z, h1, h2, h3, h4⟩ := h; exact ⟨z, h1, h2, h3, hs.trans h4⟩
  | err => obtain ⟨z, h1, h2, h3⟩ := h; exact ⟨z, h1, h2, hs.trans h3⟩
  | ok t r => obtain ⟨z, h1, h2, h3, h4⟩ := h; exact ⟨z, h1, h2, h3, hs.trans h4⟩

theorem Sim.eof (hk : x.Ok) (hl : x.rest = []) : Sim x (some (.eof, x)) .eof := ⟨x, rfl, hk, hl, Same.refl _⟩

theorem utf8Tail_ok : ∀ (n : Nat) {x : Lx}, x.Ok → Sim x (utf8Tail n x) (tailP isCont n x.rest)
  | 0, x, hk => ⟨x, rfl, hk, rfl, Same.refl _⟩
  | n + 1, x, hk => by
    rw [utf8Tail]
    cases hl : x.rest with
    | nil => rw [if_pos (eof_of hk hl), tailP]; exact Sim.eof hk hl
    | cons c l =>
      obtain ⟨x', h1, h2, h3, h4, h5⟩ := read_ok hk hl
      rw [if_neg (not_eof hk (by rw [hl]; simp)), h1, tailP]
      dsimp only
      by_cases hc : c >>> 6 = 2#8
      · rw [if_pos hc, if_pos (by simp [isCont, hc]), ← h3]
        exact (utf8Tail_ok n h2).from h4
      · rw [if_neg hc, if_neg (by simp [isCont, hc])]
        exact ⟨x', rfl, h2, h4⟩

theorem lexUtf8_ok (hk : x.Ok) (c : Byte) : Sim x (lexUtf8 x c) (utf8P c x.rest) := by
  unfold lexUtf8 utf8P
  split_ifs
  · exact ⟨x, rfl, hk, rfl, Same.refl _⟩
  · exact utf8Tail_ok 1 hk
  · exact utf8Tail_ok 2 hk
  · exact utf8Tail_ok 3 hk
  · exact ⟨x, rfl, hk, Same.refl _⟩

theorem hexTail_ok : ∀ (n : Nat) {x : Lx}, x.Ok → Sim x (hexTail n x) (tailP isVHC n x.rest)
  | 0, x, hk => ⟨x, rfl, hk, rfl, Same.refl _⟩
  | n + 1, x, hk => by
    rw [hexTail]
    cases hl : x.rest with
    | nil => rw [if_pos (eof_of hk hl), tailP]; exact Sim.eof hk hl
    | cons c l =>
      obtain ⟨x', h1, h2, h3, h4, h5⟩ := read_ok hk hl
      rw [if_neg (not_eof hk (by rw [hl]; simp)), h1, tailP]
      dsimp only
      by_cases hc : isVHC c = true
      · rw [if_pos hc, if_pos hc, ← h3]
        exact (hexTail_ok n h2).from h4
      · rw [if_neg hc, if_neg hc, h5]
        exact ⟨x, rfl, hk, Same.refl _⟩

theorem strP_ordinary {a l : List Byte} (ha : ∀ c ∈ a, ordinary c = true) (e : Bool) : strP (a ++ l) e = strP l e := by
  induction a with
  | nil => rfl
  | cons c a ih =>
    have hc := ha c (by simp)
    simp only [ordinary, isIJC, isNUC, Bool.and_eq_true, Bool.not_eq_true', decide_eq_false_iff_not] at hc
    rw [List.cons_append, strP.eq_def]
    dsimp only
    have h7 : c ≤ 0x7f#8 := by
      have := hc.2
      rw [BitVec.le_def] at *
      simp at *
      omega
    simp only [not_or] at hc
    rw [if_neg hc.1.2.1, if_neg hc.1.2.2, if_neg (by simp [isIJC, hc.1.1, hc.1.2.1, hc.1.2.2])]
    have hu : ∀ r, utf8P c r = .ok .string r := fun r => by rw [utf8P, if_pos h7]
    split
    · rename_i t r h; rw [hu] at h; cases h; exact ih (fun c h => ha c (by simp [h]))
    · rename_i h; rw [hu] at h; cases h
    · rename_i h; rw [hu] at h; cases h

theorem strP_hex {l : List Byte} (e : Bool) : strP (0x5c#8 :: 0x75#8 :: l) e = match tailP isVHC 4 l with
    | .ok _ r => strP r true
    | .eof => .eof
    | .err => .err := by
  rw [strP.eq_def]
  dsimp only
  rw [if_neg (by decide), if_pos rfl]
  rw [if_pos rfl]
  split <;> rename_i h <;> rw [h]

theorem strP_esc {d : Byte} {l : List Byte} (hd : d ≠ 0x75#8) (e : Bool) : strP (0x5c#8 :: d :: l) e = if isVEC d then strP l true else .err := by
  rw [strP.eq_def]
  dsimp only
  rw [if_neg (by decide), if_pos rfl]
  rw [if_neg hd]

theorem strP_char {c : Byte} {l : List Byte} (h1 : c ≠ 0x22#8) (h2 : c ≠ 0x5c#8) (e : Bool) : strP (c :: l) e = if isIJC c then .err else match utf8P c l with
    | .ok _ r => strP r e
    | .eof => .eof
    | .err => .err := by
  rw [strP.eq_def]
  dsimp only
  rw [if_neg h1, if_neg h2]
  split_ifs
  · rfl
  · split <;> rename_i h <;> rw [h]

theorem tailP_tok {p : Byte → Bool} : ∀ {n : Nat} {l r : List Byte} {t : Tok}, tailP p n l = .ok t r → t = .string
  | 0, l, r, t, h => by cases h; rfl
  | n + 1, [], r, t, h => by cases h
  | n + 1, c :: l, r, t, h => by
    rw [tailP] at h
    split_ifs at h
    exact tailP_tok h

theorem utf8P_tok {c : Byte} {l r : List Byte} {t : Tok} (h : utf8P c l = .ok t r) : t = .string := by
  unfold utf8P at h
  split_ifs at h
  · cases h; rfl
  all_goals exact tailP_tok h

theorem lexString_ok : ∀ (n : Nat) {x : Lx} (e : Bool), x.Ok → x.rest.length < n → Sim x (lexString n x e) (strP x.rest e)
  | 0, x, e, _, h => by omega
  | n + 1, x, e, hk, hn => by
    rw [lexString]
    obtain ⟨s1, s2, a, s3, s4⟩ := skip_ok hk
    rw [s3, strP_ordinary s4]
    have hlen : x.skip.rest.length ≤ n := by rw [s3, List.length_append] at hn; omega
    refine Sim.from s2 ?_
    clear s2 s3 s4 a hn hk
    generalize x.skip = x at *
    cases hl : x.rest with
    | nil => rw [if_pos (eof_of s1 hl), strP]; exact Sim.eof s1 hl
    | cons c l =>
      rw [hl, List.length_cons] at hlen
      obtain ⟨x1, h1, h2, h3, h4, h5⟩ := read_ok s1 hl
      rw [if_neg (not_eof s1 (by rw [hl]; simp)), h1]
      dsimp only
      by_cases c1 : c = 0x22#8
      · subst c1; rw [if_pos rfl, strP.eq_def]
        dsimp only
        rw [if_pos rfl]
        exact ⟨x1, rfl, h2, h3, h4⟩
      rw [if_neg c1]
      by_cases c2 : c = 0x5c#8
      · rw [if_pos c2]
        subst c2
        cases l with
        | nil => rw [if_pos (eof_of h2 h3), strP.eq_def]; dsimp only; rw [if_neg c1, if_pos rfl]; exact (Sim.eof h2 h3).from h4
        | cons d l =>
          obtain ⟨x2, g1, g2, g3, g4, g5⟩ := read_ok h2 h3
          rw [if_neg (not_eof h2 (by rw [h3]; simp)), g1]
          dsimp only
          by_cases c3 : d = 0x75#8
          · subst c3
            rw [if_pos rfl, strP_hex]
            have := hexTail_ok 4 g2
            rw [g3] at this
            cases ht : tailP isVHC 4 l with
            | eof =>
              rw [ht] at this
              obtain ⟨x3, e1, e2, e3, e4⟩ := this
              rw [e1]; exact ⟨x3, rfl, e2, e3, h4.trans (g4.trans e4)⟩
            | err =>
              rw [ht] at this
              obtain ⟨x3, e1, e2, e3⟩ := this
              rw [e1]; exact ⟨x3, rfl, e2, h4.trans (g4.trans e3)⟩
            | ok t r =>
              rw [ht] at this
              obtain ⟨x3, e1, e2, e3, e4⟩ := this
              rw [tailP_tok ht] at e1
              rw [e1]
              dsimp only
              have hr := tailP_len ht
              rw [← e3]
              refine (lexString_ok n true e2 ?_).from (h4.trans (g4.trans e4))
              rw [e3]; simp only [List.length_cons] at hlen; omega
          · rw [if_neg c3, strP_esc c3]
            by_cases c4 : isVEC d = true
            · rw [if_pos c4, if_pos c4, ← g3]
              refine (lexString_ok n true g2 ?_).from (h4.trans g4)
              rw [g3]; simp only [List.length_cons] at hlen; omega
            · rw [if_neg c4, if_neg c4, g5]
              exact ⟨x1, rfl, h2, h4⟩
      · rw [if_neg c2, strP_char c1 c2]
        by_cases c3 : isIJC c = true
        · rw [if_pos c3, if_pos c3, h5]
          exact ⟨x, rfl, s1, Same.refl _⟩
        · rw [if_neg c3, if_neg c3]
          have := lexUtf8_ok h2 c
          rw [h3] at this
          cases ht : utf8P c l with
          | eof =>
            rw [ht] at this
            obtain ⟨x3, e1, e2, e3, e4⟩ := this
            rw [e1]; exact ⟨x3, rfl, e2, e3, h4.trans e4⟩
          | err =>
            rw [ht] at this
            obtain ⟨x3, e1, e2, e3⟩ := this
            rw [e1]; exact ⟨x3, rfl, e2, h4.trans e3⟩
          | ok t r =>
            rw [ht] at this
            obtain ⟨x3, e1, e2, e3, e4⟩ := this
            rw [utf8P_tok ht] at e1
            rw [e1]
            dsimp only
            have hr := utf8P_len ht
            rw [← e3]
            refine (lexString_ok n e e2 ?_).from (h4.trans e4)
            rw [e3]; omega

/-! ## Numbers -/

/-- After `c` has been read: `x0` is the state before. -/
structure Read (x0 : Lx) (c : Byte) (l : List Byte) (x : Lx) : Prop where
  ok0 : x0.Ok
  rest0 : x0.rest = c :: l
  ok : x.Ok
  rest : x.rest = l
  same : Same x0 x
  back : x.unread = some x0

theorem read_ok' (hk : x.Ok) (hl : x.rest = c :: l) : ∃ x', x.read = some (c, x') ∧ Read x c l x' := by
  obtain ⟨x', h1, h2, h3, h4, h5⟩ := read_ok hk hl
  exact ⟨x', h1, hk, hl, h2, h3, h4, h5⟩

theorem readDigits_ok : ∀ (n : Nat) {x : Lx}, x.Ok → x.rest.length < n → match x.rest.dropWhile isDigit with
    | [] => ∃ x', readDigits n x = some (none, x') ∧ x'.Ok ∧ x'.rest = [] ∧ Same x x'
    | c :: l => ∃ x0 x', readDigits n x = some (some c, x') ∧ Read x0 c l x' ∧ Same x x0
  | 0, x, _, h => by omega
  | n + 1, x, hk, hn => by
    rw [readDigits]
    cases hl : x.rest with
    | nil => rw [if_pos (eof_of hk hl), List.dropWhile_nil]; exact ⟨x, rfl, hk, hl, Same.refl _⟩
    | cons c l =>
      obtain ⟨x', h1, h2⟩ := read_ok' hk hl
      rw [if_neg (not_eof hk (by rw [hl]; simp)), h1]
      dsimp only
      by_cases hc : isDigit c = true
      · rw [if_pos hc, List.dropWhile_cons_of_pos hc, ← h2.rest]
        have := readDigits_ok n h2.ok (by rw [h2.rest]; rw [hl, List.length_cons] at hn; omega)
        revert this
        cases x'.rest.dropWhile isDigit with
        | nil => rintro ⟨y, g1, g2, g3, g4⟩; exact ⟨y, g1, g2, g3, h2.same.trans g4⟩
        | cons c l => rintro ⟨x0, y, g1, g2, g3⟩; exact ⟨x0, y, g1, g2, h2.same.trans g3⟩
      · rw [if_neg hc, List.dropWhile_cons_of_neg hc]
        exact ⟨x, x', rfl, h2, Same.refl _⟩

theorem expDigits_ok {n : Nat} {x0 x : Lx} {c : Byte} {l : List Byte} (h : Read x0 c l x) (hn : l.length < n) :
    Sim x0 (if isDigit c then match readDigits n x with
            | none => none
            | some (none, x) => some (.eof, x)
            | some (some _, x) => x.unread.map fun x => (.double, x)
          else x.unread.map fun x => (.error, x))
      (if isDigit c then match l.dropWhile isDigit with
            | [] => .eof
            | d :: r => .ok .double (d :: r)
          else .err) := by
  by_cases c1 : isDigit c = true
  · rw [if_pos c1, if_pos c1]
    have := readDigits_ok n h.ok (by rw [h.rest]; exact hn)
    rw [h.rest] at this
    revert this
    cases l.dropWhile isDigit with
    | nil => rintro ⟨y, g1, g2, g3, g4⟩; rw [g1]; exact ⟨y, rfl, g2, g3, h.same.trans g4⟩
    | cons d r =>
      rintro ⟨y0, y, g1, g2, g3⟩
      rw [g1]; dsimp only; rw [g2.back]
      exact ⟨y0, rfl, g2.ok0, g2.rest0, h.same.trans g3⟩
  · rw [if_neg c1, if_neg c1, h.back]
    exact ⟨x0, rfl, h.ok0, Same.refl _⟩

theorem lexExp_ok {n : Nat} {x0 x : Lx} {c : Byte} {l : List Byte} (h : Read x0 c l x) (hn : l.length < n) (tok : Tok) :
    Sim x0 (lexExp n x c tok) (expP (c :: l) tok) := by
  unfold lexExp
  rw [expP]
  by_cases c1 : c = 0x65#8 ∨ c = 0x45#8
  · rw [if_pos c1, if_pos c1]
    cases l with
    | nil => rw [if_pos (eof_of h.ok h.rest)]; exact (Sim.eof h.ok h.rest).from h.same
    | cons d l =>
      obtain ⟨y, h1, h2⟩ := read_ok' h.ok h.rest
      rw [if_neg (not_eof h.ok (by rw [h.rest]; simp)), h1]
      dsimp only
      rw [List.length_cons] at hn
      by_cases c2 : d = 0x2b#8 ∨ d = 0x2d#8
      · rw [if_pos c2, if_pos c2]
        cases l with
        | nil => rw [if_pos (eof_of h2.ok h2.rest)]; exact (Sim.eof h2.ok h2.rest).from (h.same.trans h2.same)
        | cons e l =>
          obtain ⟨z, g1, g2⟩ := read_ok' h2.ok h2.rest
          rw [if_neg (not_eof h2.ok (by rw [h2.rest]; simp)), g1]
          dsimp only
          exact (expDigits_ok g2 (by rw [List.length_cons] at hn; omega)).from (h.same.trans h2.same)
      · rw [if_neg c2, if_neg c2]
        exact (expDigits_ok h2 (by omega)).from h.same
  · rw [if_neg c1, if_neg c1, h.back]
    exact ⟨x0, rfl, h.ok0, h.rest0, Same.refl _⟩

theorem lexFrac_ok {n : Nat} {x0 x : Lx} {c : Byte} {l : List Byte} (h : Read x0 c l x) (hn : l.length < n) : Sim x0 (lexFrac n x c) (fracP (c :: l)) := by
  unfold lexFrac
  rw [fracP.eq_def]
  dsimp only
  by_cases c1 : c = 0x2e#8
  · rw [if_pos c1, if_pos c1]
    cases l with
    | nil => rw [if_pos (eof_of h.ok h.rest)]; exact (Sim.eof h.ok h.rest).from h.same
    | cons d l =>
      obtain ⟨y, h1, h2⟩ := read_ok' h.ok h.rest
      rw [if_neg (not_eof h.ok (by rw [h.rest]; simp)), h1]
      dsimp only
      rw [List.length_cons] at hn
      by_cases c2 : isDigit d = true
      · rw [if_pos c2, if_pos c2]
        have := readDigits_ok n h2.ok (by rw [h2.rest]; omega)
        rw [h2.rest] at this
        have hlen := (List.dropWhile_sublist (l := l) isDigit).length_le
        revert this
        cases hd : l.dropWhile isDigit with
        | nil => rintro ⟨y, g1, g2, g3, g4⟩; rw [g1]; exact ⟨y, rfl, g2, g3, h.same.trans (h2.same.trans g4)⟩
        | cons e r =>
          rintro ⟨y0, y, g1, g2, g3⟩
          rw [g1]; dsimp only
          rw [hd, List.length_cons] at hlen
          exact (lexExp_ok g2 (by omega) .double).from (h.same.trans (h2.same.trans g3))
      · rw [if_neg c2, if_neg c2, h2.back]
        exact ⟨x, rfl, h.ok, h.same⟩
  · rw [if_neg c1, if_neg c1]
    exact lexExp_ok h hn _

theorem lexInt_ok {n : Nat} {x0 x : Lx} {c : Byte} {l : List Byte} (h : Read x0 c l x) (hn : l.length < n) : Sim x0 (lexInt n x c) (intP (c :: l)) := by
  unfold lexInt
  rw [intP]
  by_cases c1 : c = 0x30#8
  · rw [if_pos c1, if_pos c1]
    cases l with
    | nil => rw [if_pos (eof_of h.ok h.rest), fracP]; exact (Sim.eof h.ok h.rest).from h.same
    | cons d l =>
      obtain ⟨y, h1, h2⟩ := read_ok' h.ok h.rest
      rw [if_neg (not_eof h.ok (by rw [h.rest]; simp)), h1]
      rw [List.length_cons] at hn
      exact (lexFrac_ok h2 (by omega)).from h.same
  · rw [if_neg c1, if_neg c1]
    by_cases c2 : 0x31#8 ≤ c ∧ c ≤ 0x39#8
    · rw [if_pos c2, if_pos c2]
      have := readDigits_ok n h.ok (by rw [h.rest]; omega)
      rw [h.rest] at this
      have hlen := (List.dropWhile_sublist (l := l) isDigit).length_le
      revert this
      cases hd : l.dropWhile isDigit with
      | nil => rintro ⟨y, g1, g2, g3, g4⟩; rw [g1, fracP]; exact ⟨y, rfl, g2, g3, h.same.trans g4⟩
      | cons e r =>
        rintro ⟨y0, y, g1, g2, g3⟩
        rw [g1]; dsimp only
        rw [hd, List.length_cons] at hlen
        exact (lexFrac_ok g2 (by omega)).from (h.same.trans g3)
    · rw [if_neg c2, if_neg c2, h.back]
      exact ⟨x0, rfl, h.ok0, Same.refl _⟩

theorem lexNumber_ok {n : Nat} {x : Lx} (hk : x.Ok) (hn : x.rest.length ≤ n) : Sim x (lexNumber n x) (numP x.rest) := by
  unfold lexNumber
  cases hl : x.rest with
  | nil => rw [if_pos (eof_of hk hl), numP]; exact Sim.eof hk hl
  | cons c l =>
    obtain ⟨y, h1, h2⟩ := read_ok' hk hl
    rw [if_neg (not_eof hk (by rw [hl]; simp)), h1, numP]
    dsimp only
    rw [hl, List.length_cons] at hn
    by_cases c1 : c = 0x2d#8
    · rw [if_pos c1, if_pos c1]
      cases l with
      | nil => rw [if_pos (eof_of h2.ok h2.rest), intP]; exact (Sim.eof h2.ok h2.rest).from h2.same
      | cons d l =>
        obtain ⟨z, g1, g2⟩ := read_ok' h2.ok h2.rest
        rw [if_neg (not_eof h2.ok (by rw [h2.rest]; simp)), g1]
        rw [List.length_cons] at hn
        exact (lexInt_ok g2 (by omega)).from h2.same
    · rw [if_neg c1, if_neg c1]
      exact lexInt_ok h2 (by omega)

/-! ## Comments and words -/

theorem lexLine_ok : ∀ (n : Nat) {x : Lx}, x.Ok → x.rest.length < n → Sim x (lexLine n x) (lineP x.rest)
  | 0, x, _, h => by omega
  | n + 1, x, hk, hn => by
    rw [lexLine]
    cases hl : x.rest with
    | nil => rw [if_pos (eof_of hk hl), lineP]; exact Sim.eof hk hl
    | cons c l =>
      obtain ⟨y, h1, h2⟩ := read_ok' hk hl
      rw [if_neg (not_eof hk (by rw [hl]; simp)), h1, lineP]
      dsimp only
      rw [hl, List.length_cons] at hn
      split_ifs
      · exact ⟨y, rfl, h2.ok, h2.rest, h2.same⟩
      · rw [← h2.rest]
        exact (lexLine_ok n h2.ok (by rw [h2.rest]; omega)).from h2.same

theorem lexBlock_ok : ∀ (n : Nat) {x : Lx}, x.Ok → x.rest.length < n → Sim x (lexBlock n x) (blockP x.rest)
  | 0, x, _, h => by omega
  | n + 1, x, hk, hn => by
    rw [lexBlock]
    cases hl : x.rest with
    | nil => rw [if_pos (eof_of hk hl), blockP]; exact Sim.eof hk hl
    | cons c l =>
      obtain ⟨y, h1, h2⟩ := read_ok' hk hl
      rw [if_neg (not_eof hk (by rw [hl]; simp)), h1, blockP.eq_def]
      dsimp only
      rw [hl, List.length_cons] at hn
      by_cases c1 : c = 0x2a#8
      · rw [if_pos c1, if_pos c1]
        cases l with
        | nil => rw [if_pos (eof_of h2.ok h2.rest)]; exact (Sim.eof h2.ok h2.rest).from h2.same
        | cons d l =>
          obtain ⟨z, g1, g2⟩ := read_ok' h2.ok h2.rest
          rw [if_neg (not_eof h2.ok (by rw [h2.rest]; simp)), g1]
          dsimp only
          by_cases c2 : d = 0x2f#8
          · rw [if_pos c2, if_pos c2]; exact ⟨z, rfl, g2.ok, g2.rest, h2.same.trans g2.same⟩
          · rw [if_neg c2, if_neg c2, g2.back]
            dsimp only
            rw [← h2.rest]
            exact (lexBlock_ok n h2.ok (by rw [h2.rest]; omega)).from h2.same
      · rw [if_neg c1, if_neg c1, ← h2.rest]
        exact (lexBlock_ok n h2.ok (by rw [h2.rest]; omega)).from h2.same

theorem lexComment_ok {n : Nat} {x : Lx} (hk : x.Ok) (hn : x.rest.length ≤ n) : Sim x (lexComment n x) (comP x.rest) := by
  unfold lexComment
  cases hl : x.rest with
  | nil => rw [if_pos (eof_of hk hl), comP]; exact Sim.eof hk hl
  | cons c l =>
    obtain ⟨y, h1, h2⟩ := read_ok' hk hl
    rw [if_neg (not_eof hk (by rw [hl]; simp)), h1, comP]
    dsimp only
    rw [hl, List.length_cons] at hn
    split_ifs
    · rw [← h2.rest]; exact (lexLine_ok n h2.ok (by rw [h2.rest]; omega)).from h2.same
    · rw [← h2.rest]; exact (lexBlock_ok n h2.ok (by rw [h2.rest]; omega)).from h2.same
    · exact ⟨y, rfl, h2.ok, h2.same⟩

theorem lexWord_ok (t : Tok) : ∀ (want : List Byte) {x : Lx}, x.Ok → Sim x (lexWord t want x) (wordP t want x.rest)
  | [], x, hk => by rw [lexWord, wordP]; exact ⟨x, rfl, hk, rfl, Same.refl _⟩
  | w :: want, x, hk => by
    rw [lexWord]
    cases hl : x.rest with
    | nil => rw [if_pos (eof_of hk hl), wordP]; exact Sim.eof hk hl
    | cons c l =>
      obtain ⟨y, h1, h2⟩ := read_ok' hk hl
      rw [if_neg (not_eof hk (by rw [hl]; simp)), h1, wordP]
      dsimp only
      by_cases c1 : c ≠ w
      · rw [if_pos c1, if_pos c1, h2.back]; exact ⟨x, rfl, hk, Same.refl _⟩
      · rw [if_neg c1, if_neg c1, ← h2.rest]
        exact (lexWord_ok t want h2.ok).from h2.same

end WG.Yajl
