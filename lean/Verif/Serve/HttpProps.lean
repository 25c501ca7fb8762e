import Verif.Serve.Http
import Verif.Serve.HttpSpec
import Verif.Attach.Lemmas
import Verif.Json.Top
import Verif.Csv.Props

/-!
# The server: the query that is found in a request (C80)
-/
namespace WG.Serve.Http
open WG.Csv (Str Byte asc)

theorem readLine_eq {l : Str} (h : OneLine l) (rest : List Byte) : ∀ n, l.length < n → readLine n (l ++ 10#8 :: rest) = (l ++ [10#8], rest) := by
  induction l with
  | nil => intro n hn; obtain ⟨n, rfl⟩ : ∃ k, n = k + 1 := ⟨n - 1, by simp at hn; omega⟩; simp [readLine]
  | cons c l ih =>
    intro n hn
    obtain ⟨n, rfl⟩ : ∃ k, n = k + 1 := ⟨n - 1, by simp at hn; omega⟩
    have hc : c ≠ 10#8 := fun e => h (by simp [e])
    have hl : OneLine l := fun e => h (by simp [e])
    rw [List.cons_append, readLine, if_neg hc, ih hl n (by simp at hn; omega)]
    rfl

theorem readInto_eq {maxl : Nat} {l : Str} (h : OneLine l) (hl : l.length + 1 < maxl) (buf rest : List Byte) :
    ∃ tail, readInto maxl buf (l ++ 10#8 :: rest) = (l ++ 10#8 :: 0#8 :: tail, rest) := by
  refine ⟨buf.drop (l.length + 2), ?_⟩
  unfold readInto
  rw [readLine_eq h rest (maxl - 1) (by omega)]
  simp

theorem cstr_eq {w : Str} (h : 0#8 ∉ w) (pre rest : List Byte) : cstr (pre ++ (w ++ 0#8 :: rest)) pre.length = some w := by
  unfold cstr
  rw [List.drop_left]
  rw [if_pos (by simp), List.takeWhile_append_of_pos (by intro c hc; have : c ≠ 0#8 := fun e => h (e ▸ hc); simpa using this)]
  simp

theorem cstr_zero {w : Str} (h : 0#8 ∉ w) (rest : List Byte) : cstr (w ++ 0#8 :: rest) 0 = some w := cstr_eq h [] rest

theorem split_word {w : Str} (h : Word w) (rest : List Byte) {i : Nat} (hi : i < 2) :
    ∀ p, split p i (w ++ 32#8 :: rest) = (split (p + w.length + 1) (i + 1) rest).map fun x => (w ++ 0#8 :: x.1, (p + w.length + 1) :: x.2) := by
  induction w with
  | nil =>
    intro p
    rw [List.nil_append, split, if_neg (by simp; omega), if_pos rfl]
    rfl
  | cons c w ih =>
    intro p
    have hc := h c (by simp)
    rw [List.cons_append, split, if_neg (by simp [hc]; omega), if_neg hc.1, ih (fun c hc => h c (by simp [hc])) (p + 1), Option.map_map]
    have e : p + 1 + w.length + 1 = p + (c :: w).length + 1 := by simp; omega
    rw [e]
    rfl

theorem split_two (c : Byte) (r : List Byte) (p : Nat) : split p 2 (c :: r) = some (c :: r, []) := by rw [split, if_pos (Or.inl (Nat.le_refl _))]

theorem findQ_hit {w : Str} (h : Word w) (hq : 63#8 ∉ w) (rest : List Byte) : ∀ p, findQ p (w ++ 63#8 :: rest) = some (w ++ 0#8 :: rest, some (p + w.length + 1)) := by
  induction w with
  | nil => intro p; rw [List.nil_append, findQ, if_neg (by decide), if_pos rfl]; rfl
  | cons c w ih =>
    intro p
    have hc := h c (by simp)
    rw [List.cons_append, findQ, if_neg hc.2.2, if_neg (fun e => hq (by simp [e])), ih (fun c hc => h c (by simp [hc])) (fun e => hq (by simp [e])) (p + 1)]
    have e : p + 1 + w.length + 1 = p + (c :: w).length + 1 := by simp; omega
    rw [e]
    rfl

theorem findQ_miss {w : Str} (h : Word w) (hq : 63#8 ∉ w) (rest : List Byte) : ∀ p, findQ p (w ++ 0#8 :: rest) = some (w ++ 0#8 :: rest, none) := by
  induction w with
  | nil => intro p; rw [List.nil_append, findQ, if_pos rfl]
  | cons c w ih =>
    intro p
    have hc := h c (by simp)
    rw [List.cons_append, findQ, if_neg hc.2.2, if_neg (fun e => hq (by simp [e])), ih (fun c hc => h c (by simp [hc])) (fun e => hq (by simp [e])) (p + 1)]
    rfl

/-- The request line is split at its first two spaces. -/
theorem line_split {maxl : Nat} {m uri version : Str} (hm : Word m) (hu : Word uri) (hv : OneLine version) (hl : (firstLine m uri version).length < maxl) (buf rest : List Byte) :
    ∃ c tail, (readInto maxl buf (firstLine m uri version ++ rest)).2 = rest ∧
      split 0 0 (readInto maxl buf (firstLine m uri version ++ rest)).1 = some (m ++ 0#8 :: (uri ++ 0#8 :: c :: tail), [m.length + 1, m.length + 1 + uri.length + 1]) := by
  have e : firstLine m uri version ++ rest = (m ++ 32#8 :: (uri ++ 32#8 :: version)) ++ 10#8 :: rest := by simp [firstLine]
  have h1 : OneLine (m ++ 32#8 :: (uri ++ 32#8 :: version)) := by
    intro h
    simp only [List.mem_append, List.mem_cons] at h
    rcases h with h | h | h | h | h
    · exact (hm _ h).2.1 rfl
    · cases h
    · exact (hu _ h).2.1 rfl
    · cases h
    · exact hv h
  have h2 : (m ++ 32#8 :: (uri ++ 32#8 :: version)).length + 1 < maxl := by simp [firstLine] at hl ⊢; omega
  obtain ⟨tl, h3⟩ := readInto_eq h1 h2 buf rest
  rw [e, h3]
  obtain ⟨c, tail, h4⟩ : ∃ c tail, version ++ 10#8 :: 0#8 :: tl = c :: tail := by cases version <;> exact ⟨_, _, rfl⟩
  refine ⟨c, tail, rfl, ?_⟩
  have e2 : (m ++ 32#8 :: (uri ++ 32#8 :: version)) ++ 10#8 :: 0#8 :: tl = m ++ 32#8 :: (uri ++ 32#8 :: c :: tail) := by simp [← h4]
  simp only [e2]
  rw [split_word hm _ (by decide), split_word hu _ (by decide), split_two]
  simp

theorem no_zero {w : Str} (h : Word w) : 0#8 ∉ w := fun e => (h _ e).2.2 rfl

theorem word_GET : Word (asc "GET") := by unfold Word; decide
theorem word_POST : Word (asc "POST") := by unfold Word; decide

/-- C80 (GET): the query of a GET is the text between the first `?` of the second word and the next space, whatever the thread served before. -/
theorem C80_get_partial {maxl : Nat} {path q version : Str} (hp : Word path) (hp' : 63#8 ∉ path) (hq : Word q) (hv : OneLine version)
    (hl : (firstLine (asc "GET") (path ++ 63#8 :: q) version).length < maxl) (bufp junk rest : List Byte) (t : Th) :
    (request maxl bufp junk t (firstLine (asc "GET") (path ++ 63#8 :: q) version ++ rest)).2 = if q = [] then .noQuery else .query q := by
  have hu : Word (path ++ 63#8 :: q) := by
    intro c hc
    simp only [List.mem_append, List.mem_cons] at hc
    rcases hc with hc | hc | hc
    · exact hp c hc
    · subst hc; decide
    · exact hq c hc
  obtain ⟨c, tail, e1, e2⟩ := line_split word_GET hu hv hl t.buf rest
  unfold request
  simp only [e1, e2]
  rw [cstr_zero (no_zero word_GET)]
  simp only [ne_eq, not_true_eq_false, false_and, if_false, List.getElem?_cons_zero, List.getElem?_cons_succ, Option.some_or, if_true]
  have hd : ((asc "GET") ++ 0#8 :: ((path ++ 63#8 :: q) ++ 0#8 :: c :: tail)).drop ((asc "GET").length + 1) = path ++ 63#8 :: (q ++ 0#8 :: c :: tail) := by
    simp [List.drop_append]
  have ht : ((asc "GET") ++ 0#8 :: ((path ++ 63#8 :: q) ++ 0#8 :: c :: tail)).take ((asc "GET").length + 1) = (asc "GET") ++ [0#8] := by
    simp [List.take_append]
  simp only [hd, ht, findQ_hit hp hp' (q ++ 0#8 :: c :: tail)]
  unfold useQuery
  simp only [Option.map_some, Option.some_or]
  have hc := cstr_eq (no_zero hq) ((asc "GET") ++ [0#8] ++ path ++ [0#8]) (c :: tail)
  have e3 : asc "GET" ++ [0#8] ++ (path ++ 0#8 :: (q ++ 0#8 :: c :: tail)) = (asc "GET") ++ [0#8] ++ path ++ [0#8] ++ (q ++ 0#8 :: c :: tail) := by simp
  have e4 : (asc "GET").length + 1 + path.length + 1 = ((asc "GET") ++ [0#8] ++ path ++ [0#8]).length := by simp; omega
  rw [e3, e4, hc]
  by_cases hq0 : q = [] <;> simp [hq0]

/-- C80 (GET without a query): it is refused, if the thread is new. -/
theorem C80_none_partial {maxl : Nat} {path version : Str} (hp : Word path) (hp' : 63#8 ∉ path) (hv : OneLine version)
    (hl : (firstLine (asc "GET") path version).length < maxl) (bufp junk rest buf : List Byte) :
    (request maxl bufp junk (fresh buf) (firstLine (asc "GET") path version ++ rest)).2 = .noQuery := by
  obtain ⟨c, tail, e1, e2⟩ := line_split word_GET hp hv hl buf rest
  unfold request fresh
  simp only [e1, e2]
  rw [cstr_zero (no_zero word_GET)]
  simp only [ne_eq, not_true_eq_false, false_and, if_false, List.getElem?_cons_zero, List.getElem?_cons_succ, Option.some_or, if_true]
  have hd : ((asc "GET") ++ 0#8 :: (path ++ 0#8 :: c :: tail)).drop ((asc "GET").length + 1) = path ++ 0#8 :: c :: tail := by
    simp [List.drop_append]
  simp only [hd, findQ_miss hp hp']
  rfl

/-- C80 (other methods): they are refused, whatever the thread served before. -/
theorem C80_method {maxl : Nat} {m uri version : Str} (hm : Word m) (hg : m ≠ asc "GET") (hp : m ≠ asc "POST") (hu : Word uri) (hv : OneLine version)
    (hl : (firstLine m uri version).length < maxl) (bufp junk rest : List Byte) (t : Th) :
    (request maxl bufp junk t (firstLine m uri version ++ rest)).2 = .method := by
  obtain ⟨c, tail, e1, e2⟩ := line_split hm hu hv hl t.buf rest
  unfold request
  simp only [e1, e2]
  rw [cstr_zero (no_zero hm)]
  simp [hg, hp]

theorem split_end {w : Str} (h : ∀ c ∈ w, c ≠ 32#8 ∧ c ≠ 0#8) (rest : List Byte) (i : Nat) (hi : i < 2) : ∀ p, split p i (w ++ 0#8 :: rest) = some (w ++ 0#8 :: rest, []) := by
  induction w with
  | nil => intro p; rw [List.nil_append, split, if_pos (Or.inr rfl)]
  | cons c w ih =>
    intro p
    have hc := h c (by simp)
    rw [List.cons_append, split, if_neg (by simp [hc]; omega), if_neg hc.1, ih (fun c hc => h c (by simp [hc])) (p + 1)]
    rfl

/-- C80 (line without a version): it is refused, if the thread is new. -/
theorem C80_short_partial {maxl : Nat} {uri : Str} (hu : Word uri) (hl : uri.length + 6 < maxl) (bufp junk rest buf : List Byte) :
    (request maxl bufp junk (fresh buf) (asc "GET" ++ 32#8 :: (uri ++ 10#8 :: rest))).2 = .request := by
  have h1 : OneLine (asc "GET" ++ 32#8 :: uri) := by
    intro h
    simp only [List.mem_append, List.mem_cons] at h
    rcases h with h | h | h
    · exact absurd h (by decide)
    · cases h
    · exact (hu _ h).2.1 rfl
  have hG : (asc "GET").length = 3 := by decide
  obtain ⟨tl, h3⟩ := readInto_eq (maxl := maxl) h1 (by simp [hG]; omega) buf rest
  have e : asc "GET" ++ 32#8 :: (uri ++ 10#8 :: rest) = (asc "GET" ++ 32#8 :: uri) ++ 10#8 :: rest := by simp
  have e2 : (asc "GET" ++ 32#8 :: uri) ++ 10#8 :: 0#8 :: tl = asc "GET" ++ 32#8 :: ((uri ++ [10#8]) ++ 0#8 :: tl) := by simp
  have hw : ∀ c ∈ uri ++ [10#8], c ≠ 32#8 ∧ c ≠ 0#8 := by
    intro c hc
    simp only [List.mem_append, List.mem_singleton] at hc
    rcases hc with hc | hc
    · exact ⟨(hu c hc).1, (hu c hc).2.2⟩
    · subst hc; decide
  have e3 : split 0 0 (asc "GET" ++ 32#8 :: ((uri ++ [10#8]) ++ 0#8 :: tl)) = some (asc "GET" ++ 0#8 :: ((uri ++ [10#8]) ++ 0#8 :: tl), [(asc "GET").length + 1]) := by
    rw [split_word word_GET _ (by decide), split_end hw tl 1 (by decide)]
    simp
  unfold request fresh
  simp only [e, h3, e2, e3]
  rw [cstr_zero (no_zero word_GET)]
  simp

theorem strtol_space (s : Str) : Attach.strtol (32#8 :: s) = Attach.strtol s := by
  unfold Attach.strtol
  rw [show (32#8 :: s).dropWhile Attach.isSpace = s.dropWhile Attach.isSpace from by rw [List.dropWhile_cons, if_pos (by decide)]]

theorem atoi_eq {ds : Str} (h : Attach.Digits ds) (hv : Attach.value ds < 100000000) : atoi (32#8 :: (ds ++ asc "\r\n")) = Attach.value ds := by
  unfold atoi
  have hr : ∀ c r, asc "\r\n" = c :: r → Attach.isDigit c = false := by
    intro c r e
    have e1 := congrArg List.head? e
    have : c = 13#8 := by simpa [asc] using e1.symm
    subst this; decide
  rw [strtol_space, Attach.strtol_digits h hr (by omega)]
  unfold Attach.toInt
  rw [BitVec.toInt_ofInt]
  exact Int.bmod_eq_of_le (by omega) (by omega)

theorem cstr_line {l : Str} (h : 0#8 ∉ l) (tail : List Byte) : cstr (l ++ 10#8 :: 0#8 :: tail) 0 = some (l ++ [10#8]) := by
  have := cstr_zero (w := l ++ [10#8]) (by simp [h]) tail
  simpa using this

theorem other_prefix {p l : Str} (hp : 10#8 ∉ p) (h : ¬ p <+: l) : ¬ p <+: l ++ [10#8] := by
  rw [List.prefix_concat_iff]
  rintro (e | e)
  · exact hp (by rw [e]; simp)
  · exact h e

/-- A line that is not about the length changes nothing. -/
theorem headers_other {maxl : Nat} {l : Str} (h : Other l) (hl : l.length + 1 < maxl) (n : Nat) (bufp : List Byte) (len : Int) (rest : List Byte) :
    ∃ b, headers maxl (n + 1) bufp len (l ++ 10#8 :: rest) = headers maxl n b len rest := by
  obtain ⟨tail, e⟩ := readInto_eq h.one hl bufp rest
  refine ⟨l ++ 10#8 :: 0#8 :: tail, ?_⟩
  rw [headers]
  simp only [e, cstr_line h.zero, Option.bind_some]
  have n1 := other_prefix (p := asc "Content-Length:") (by decide) h.other.1
  have n2 := other_prefix (p := asc "content-length:") (by decide) h.other.2
  obtain ⟨c, r, rfl⟩ : ∃ c r, l = c :: r := by cases l with
    | nil => exact absurd rfl h.full.1
    | cons c r => exact ⟨c, r, rfl⟩
  have h13 : c ≠ 13#8 := fun e => h.full.2 (by simp [e])
  have h10 : c ≠ 10#8 := fun e => h.one (by simp [e])
  have n3 : ¬ asc "\r\n" <+: c :: r ++ [10#8] := by
    rintro ⟨x, hx⟩; have := congrArg List.head? hx; simp [asc] at this; exact h13 this.symm
  have n4 : ¬ asc "\n" <+: c :: r ++ [10#8] := by
    rintro ⟨x, hx⟩; have := congrArg List.head? hx; simp [asc] at this; exact h10 this.symm
  simp only [List.isPrefixOf_iff_prefix, n1, n2, n3, n4, or_self, if_false]

/-- The line with the length. -/
theorem headers_length {maxl : Nat} {ds : Str} (h : Attach.Digits ds) (hv : Attach.value ds < 100000000) (hl : (lengthLine ds).length < maxl) (n : Nat) (bufp : List Byte) (len : Int) (rest : List Byte) :
    ∃ b, headers maxl (n + 1) bufp len (lengthLine ds ++ rest) = headers maxl n b (Attach.value ds) rest := by
  have e0 : lengthLine ds ++ rest = (asc "Content-Length: " ++ ds ++ [13#8]) ++ 10#8 :: rest := by
    unfold lengthLine
    rw [show asc "\r\n" = [13#8, 10#8] from by decide]; simp
  have hds : ∀ c ∈ ds, c ≠ 10#8 ∧ c ≠ 0#8 := by
    intro c hc; have := h.2 c hc
    constructor <;> (rintro rfl; simp at this)
  have hone : OneLine (asc "Content-Length: " ++ ds ++ [13#8]) := by
    intro e; simp only [List.mem_append] at e
    rcases e with (e | e) | e
    · exact absurd e (by decide)
    · exact (hds _ e).1 rfl
    · exact absurd e (by decide)
  have hz : 0#8 ∉ (asc "Content-Length: " ++ ds ++ [13#8]) := by
    intro e; simp only [List.mem_append] at e
    rcases e with (e | e) | e
    · exact absurd e (by decide)
    · exact (hds _ e).2 rfl
    · exact absurd e (by decide)
  have hl' : (asc "Content-Length: " ++ ds ++ [13#8]).length + 1 < maxl := by
    unfold lengthLine at hl
    rw [show asc "\r\n" = [13#8, 10#8] from by decide] at hl
    simp at hl ⊢; omega
  obtain ⟨tail, e⟩ := readInto_eq hone hl' bufp rest
  refine ⟨(asc "Content-Length: " ++ ds ++ [13#8]) ++ 10#8 :: 0#8 :: tail, ?_⟩
  rw [headers, e0]
  simp only [e, cstr_line hz, Option.bind_some]
  have e5 : asc "Content-Length: " ++ ds ++ [13#8] ++ [10#8] = asc "Content-Length:" ++ (32#8 :: (ds ++ asc "\r\n")) := by
    rw [show asc "\r\n" = [13#8, 10#8] from by decide, show asc "Content-Length: " = asc "Content-Length:" ++ [32#8] from by decide]; simp
  rw [e5]
  have y1 : asc "Content-Length:" <+: asc "Content-Length:" ++ (32#8 :: (ds ++ asc "\r\n")) := ⟨_, rfl⟩
  have n3 : ¬ asc "\r\n" <+: asc "Content-Length:" ++ (32#8 :: (ds ++ asc "\r\n")) := by
    rintro ⟨x, hx⟩; have := congrArg List.head? hx; simp [asc] at this
  have n4 : ¬ asc "\n" <+: asc "Content-Length:" ++ (32#8 :: (ds ++ asc "\r\n")) := by
    rintro ⟨x, hx⟩; have := congrArg List.head? hx; simp [asc] at this
  have hd : (asc "Content-Length:" ++ (32#8 :: (ds ++ asc "\r\n"))).drop 15 = 32#8 :: (ds ++ asc "\r\n") := List.drop_left (l₁ := asc "Content-Length:")
  simp only [List.isPrefixOf_iff_prefix, y1, n3, n4, or_self, true_or, if_true, if_false, hd, atoi_eq h hv]

/-- The empty line. -/
theorem headers_end {maxl : Nat} (hl : 2 < maxl) (n : Nat) (bufp : List Byte) (len : Int) (rest : List Byte) :
    headers maxl (n + 1) bufp len (asc "\r\n" ++ rest) = some (some (len, rest)) := by
  obtain ⟨tail, e⟩ := readInto_eq (l := [13#8]) (by unfold OneLine; decide) hl bufp rest
  rw [headers, show asc "\r\n" ++ rest = [13#8] ++ 10#8 :: rest from by rw [show asc "\r\n" = [13#8, 10#8] from by decide]; rfl]
  simp only [e, cstr_line (l := [13#8]) (by decide), Option.bind_some]
  rw [if_pos (Or.inl (by decide)), if_neg (by decide)]

theorem headers_lines {maxl : Nat} (ls : List Str) (h : ∀ l ∈ ls, Other l ∧ l.length + 1 < maxl) (n : Nat) : ∀ (bufp : List Byte) (len : Int) (rest : List Byte),
    ∃ b, headers maxl (ls.length + n) bufp len (lines ls ++ rest) = headers maxl n b len rest := by
  induction ls with
  | nil => intro bufp len rest; exact ⟨bufp, by simp [lines]⟩
  | cons l ls ih =>
    intro bufp len rest
    obtain ⟨b, e⟩ := headers_other (h l (by simp)).1 (h l (by simp)).2 (ls.length + n) bufp len (lines ls ++ rest)
    obtain ⟨b2, e2⟩ := ih (fun l hl => h l (by simp [hl])) b len rest
    refine ⟨b2, ?_⟩
    rw [← e2, ← e, show (l :: ls).length + n = ls.length + n + 1 from by simp; omega]
    simp [lines]

/-- C80 (POST): the query of a POST is its data, whatever the thread served before, if a 0 byte happens to follow the data in memory. -/
theorem C80_post_partial {maxl : Nat} {uri version ds body : Str} {before after : List Str} {junk : List Byte} (hu : Word uri) (hv : OneLine version)
    (hl : (firstLine (asc "POST") uri version).length < maxl)
    (hb : ∀ l ∈ before, Other l ∧ l.length + 1 < maxl) (ha : ∀ l ∈ after, Other l ∧ l.length + 1 < maxl) (hn : before.length + after.length + 2 ≤ 1000)
    (hd : Attach.Digits ds) (hll : (lengthLine ds).length < maxl) (hlen : Attach.value ds = body.length) (h0 : body ≠ []) (hlt : body.length < 100000000) (hz : 0#8 ∉ body)
    (hj : junk.head? = some 0#8) (bufp rest : List Byte) (t : Th) :
    (request maxl bufp junk t (firstLine (asc "POST") uri version ++ (lines before ++ (lengthLine ds ++ (lines after ++ (asc "\r\n" ++ (body ++ rest))))))).2 = .query body := by
  obtain ⟨c, tail, e1, e2⟩ := line_split word_POST hu hv hl t.buf (lines before ++ (lengthLine ds ++ (lines after ++ (asc "\r\n" ++ (body ++ rest)))))
  unfold request
  simp only [e1, e2]
  rw [cstr_zero (no_zero word_POST)]
  obtain ⟨k, hk⟩ : ∃ k, 1000 = before.length + (after.length + (k + 1) + 1) := ⟨1000 - before.length - after.length - 2, by omega⟩
  obtain ⟨b1, f1⟩ := headers_lines before hb (after.length + (k + 1) + 1) bufp 0 (lengthLine ds ++ (lines after ++ (asc "\r\n" ++ (body ++ rest))))
  obtain ⟨b2, f2⟩ := headers_length hd (by omega) hll (after.length + (k + 1)) b1 0 (lines after ++ (asc "\r\n" ++ (body ++ rest)))
  obtain ⟨b3, f3⟩ := headers_lines after ha (k + 1) b2 (Attach.value ds) (asc "\r\n" ++ (body ++ rest))
  have f4 := headers_end (maxl := maxl) (by unfold lengthLine at hll; rw [show asc "Content-Length: " = asc "Content-" ++ asc "Length: " from by decide] at hll; simp [asc] at hll; omega) k b3 (Attach.value ds) (body ++ rest)
  have hp : postData maxl bufp junk (lines before ++ (lengthLine ds ++ (lines after ++ (asc "\r\n" ++ (body ++ rest))))) = some (some (body ++ junk)) := by
    unfold postData maxLines
    rw [hk, f1, f2, f3, f4]
    have hpos : 0 < body.length := List.length_pos_iff.2 h0
    simp only [Option.map_some, Option.bind_some, hlen, Int.toNat_natCast]
    rw [if_neg (by unfold maxMalloc; omega), if_neg (by simp), List.take_left]
  obtain ⟨jr, rfl⟩ : ∃ r, junk = 0#8 :: r := by cases junk with
    | nil => cases hj
    | cons a r => exact ⟨r, by simp at hj; rw [hj]⟩
  have hg : asc "POST" ≠ asc "GET" := by decide
  simp only [ne_eq, not_true_eq_false, and_false, if_false, List.getElem?_cons_zero, List.getElem?_cons_succ, Option.some_or, hg, hp, cstr_zero hz, h0]

/-- C80 (header): the header of the answer tells the number of bytes of the answer in decimal. -/
theorem C80_header (len : Nat) (h : len < 10 ^ 10) : ∃ ds, Attach.Digits ds ∧ Attach.value ds = len ∧
    header len = asc "HTTP/1.0 200 OK\r\nServer: dserve\r\nAccess-Control-Allow-Origin: *\r\nConnection: Close\r\nCache-Control: no-cache, must-revalidate\r\nPragma: no-cache\r\nContent-Length: "
      ++ ds ++ List.replicate (11 - ds.length) 32#8 ++ asc "\r\nContent-Type: text/plain\r\n\r\n" := by
  refine ⟨Json.digits len, (WG.Csv.digits_text len).1, (WG.Csv.decimal_value (Json.digits len)).trans (WG.Csv.digits_text len).2, ?_⟩
  have hk := Json.digits_len len 9 h
  have h1 : 0 < (Json.digits len).length := List.length_pos_iff.2 (WG.Csv.digits_text len).1.1
  unfold header
  generalize Json.digits len = d at hk h1
  have key : ∀ k, k ≤ 10 → 0 < k →
      (32#8 : Byte) :: ((template.drop ((template.takeWhile (· ≠ 88#8)).length + k + 1)).takeWhile (· = 88#8)).map (fun _ => (32#8 : Byte)) ++
      (template.drop ((template.takeWhile (· ≠ 88#8)).length + k + 1)).dropWhile (· = 88#8) = List.replicate (11 - k) 32#8 ++ asc "\r\nContent-Type: text/plain\r\n\r\n" := by
    decide +kernel
  have k0 : template.take (template.takeWhile (· ≠ 88#8)).length = asc "HTTP/1.0 200 OK\r\nServer: dserve\r\nAccess-Control-Allow-Origin: *\r\nConnection: Close\r\nCache-Control: no-cache, must-revalidate\r\nPragma: no-cache\r\nContent-Length: " := by
    decide +kernel
  have k1 := key d.length hk h1
  simp only [k0]
  rw [List.append_assoc, List.append_assoc, List.append_assoc, ← k1]
  simp

end WG.Serve.Http
