import Verif.Serve.ConfSpec

/-!
# The server: the configuration is what the file says (C77)
-/
namespace WG.Serve
open WG.Csv (Str Byte asc)
open Spec

theorem drop_all {p : Byte → Bool} {a b : Str} (h : ∀ c ∈ a, p c = true) : (a ++ b).dropWhile p = b.dropWhile p := by
  rw [List.dropWhile_append_of_pos h]

theorem take_all {p : Byte → Bool} {a b : Str} (h : ∀ c ∈ a, p c = true) (hb : ∀ c r, b = c :: r → p c = false) : (a ++ b).takeWhile p = a := by
  rw [List.takeWhile_append_of_pos h]
  cases b with
  | nil => simp
  | cons c r => rw [List.takeWhile_cons, hb c r rfl]; simp

theorem drop_to {p : Byte → Bool} {a b : Str} (h : ∀ c ∈ a, p c = true) (hb : ∀ c r, b = c :: r → p c = false) : (a ++ b).dropWhile p = b := by
  rw [drop_all h]
  cases b with
  | nil => rfl
  | cons c r => rw [List.dropWhile_cons, hb c r rfl]; simp

theorem space_blank {c : Byte} (h : Space c) : blank c = true := by
  rcases h with rfl | rfl | rfl <;> rfl

theorem value_not {c : Byte} (h : ValueByte c) : stops c = false ∧ blank c = false ∧ c ≠ 0#8 ∧ c ≠ 10#8 ∧ Attach.isSpace c = false := by
  obtain ⟨h1, h2, h3, h4⟩ := h
  have a : c ≠ 9#8 := by rintro rfl; exact h1 (by decide)
  have b : c ≠ 10#8 := by rintro rfl; exact h1 (by decide)
  have d : c ≠ 13#8 := by rintro rfl; exact h1 (by decide)
  have e : Attach.isSpace c = false := by
    unfold Attach.isSpace
    by_cases h : 9 ≤ c.toNat
    · have : ¬ c.toNat ≤ 13 := fun h' => h1 ⟨h, h'⟩
      simp [h2, this]
    · simp [h2, h]
  exact ⟨by simp [stops, blank, h2, h3, a, b, d], by simp [blank, h2, a, d], h4, b, e⟩

theorem key_not {c : Byte} (h : KeyByte c) : blank c = false ∧ c ≠ 0#8 ∧ c ≠ 10#8 ∧ c ≠ 61#8 ∧ Attach.isSpace c = false := by
  obtain ⟨h1, h2, h3, h4⟩ := h
  have a : c ≠ 9#8 := by rintro rfl; exact h1 (by decide)
  have b : c ≠ 10#8 := by rintro rfl; exact h1 (by decide)
  have d : c ≠ 13#8 := by rintro rfl; exact h1 (by decide)
  have e : Attach.isSpace c = false := by
    unfold Attach.isSpace
    by_cases h : 9 ≤ c.toNat
    · have : ¬ c.toNat ≤ 13 := fun h' => h1 ⟨h, h'⟩
      simp [h2, this]
    · simp [h2, h]
  exact ⟨by simp [blank, h2, a, d], h4, b, h3, e⟩

theorem upTo0_id {s : Str} (h : ∀ c ∈ s, c ≠ 0#8) : upTo0 s = s := by
  have := take_all (p := fun b => decide (b ≠ 0#8)) (a := s) (b := []) (fun c hc => by simpa using h c hc) (by intro c r e; cases e)
  rwa [List.append_nil] at this

theorem toNl_line {t rest : Str} (h : 10#8 ∉ t) (hr : ∀ c r, rest = c :: r → c = 10#8) : toNl (t ++ rest) = rest := by
  unfold toNl
  refine drop_to (fun c hc => ?_) (fun c r e => ?_)
  · simp; rintro rfl; exact h hc
  · simp [hr c r e]

/-- The rest of the file behind a line: nothing, or a new line. -/
def Behind (rest : Str) : Prop := ∀ c r, rest = c :: r → c = 10#8

/-- Passing the ends of lines. -/
def passNl (s : Str) : Str := s.dropWhile fun b => b = 13#8 || b = 10#8

theorem tail_stop {t rest : Str} (ht : Tail t) (hr : Behind rest) : ∀ c r, t ++ rest = c :: r → (!stops c) = false := by
  intro c r e
  cases t with
  | nil => rw [hr c r e]; rfl
  | cons d t =>
    cases e
    rcases ht.2 c t rfl with rfl | h | h | h
    · rfl
    all_goals subst h; rfl

theorem passNl_cons (r : Str) : passNl (10#8 :: r) = passNl r := by simp [passNl]

theorem afterVal_line (junk : Byte) {t rest : Str} (ht : Tail t) (hr : Behind rest) : passNl (afterVal junk (t ++ rest)) = passNl rest := by
  unfold afterVal
  split
  · rename_i h
    cases t with
    | nil =>
      cases rest with
      | nil => rfl
      | cons c r => rw [hr c r rfl, passNl_cons]; rfl
    | cons c t =>
      simp only [peek, List.cons_append, List.headD_cons] at h
      exact absurd (by simp [h]) ht.1
  · rw [toNl_line ht.1 hr]

theorem key_nonempty {k : Str} (h : ∃ c r, k = c :: r ∧ KeyByte c) : emptyStr k = false := by
  obtain ⟨c, r, rfl, hc⟩ := h
  simp [emptyStr, (key_not hc).2.2.2.2]

/-- What a line adds. -/
def lineAdd (key : Option Str) : Line → Option (Str × Str)
  | .define k _ _ v _ => some (k, v)
  | .more _ v _ => key.map fun k => (k, v)
  | _ => none

/-- The key after a line. -/
def lineKey (key : Option Str) : Line → Option Str
  | .define k _ _ _ _ => some k
  | _ => key

/-- Keys that were defined. -/
def KeyOk (key : Option Str) : Prop := ∀ k, key = some k → ∃ c r, k = c :: r ∧ KeyByte c

/-- Each line but an empty one. -/
theorem row_line (junk : Byte) (room : Nat) {key : Option Str} (hk : KeyOk key) {l : Line} (hl : l.Ok) (he : ∀ t, l ≠ .empty t) {rest : Str} (hr : Behind rest)
    (hn : ∀ w, l = .spaces w [] → rest ≠ []) :
    ∃ r, confRow junk room key (l.text ++ rest) = some ⟨lineKey key l, lineAdd key l, r⟩ ∧ passNl r = passNl rest := by
  cases l with
  | empty t => exact absurd rfl (he t)
  | comment t =>
    refine ⟨_, ?_, congrArg passNl (toNl_line (t := asc "#" ++ t) (by simp only [List.mem_append, not_or]; exact ⟨by decide, hl⟩) hr)⟩
    have : peek junk ((Line.comment t).text ++ rest) = 35#8 := rfl
    simp only [confRow, this]; rfl
  | heading t =>
    refine ⟨_, ?_, congrArg passNl (toNl_line (t := asc "[" ++ t) (by simp only [List.mem_append, not_or]; exact ⟨by decide, hl⟩) hr)⟩
    have : peek junk ((Line.heading t).text ++ rest) = 91#8 := rfl
    simp only [confRow, this]; rfl
  | spaces w t =>
    obtain ⟨⟨c, r, rfl, h1⟩, h2, h3, h4⟩ := hl
    have hp : peek junk ((Line.spaces (c :: r) t).text ++ rest) = 32#8 ∨ peek junk ((Line.spaces (c :: r) t).text ++ rest) = 9#8 := by
      have := h2 c (by simp)
      simp only [Line.text, List.cons_append, peek, List.headD_cons]
      rcases this with h | h | h
      · exact Or.inl h
      · exact Or.inr h
      · exact absurd h h1
    rw [confRow, if_pos hp, spaceRow]
    have ed : ((Line.spaces (c :: r) t).text ++ rest).dropWhile blank = t ++ rest := by
      rw [Line.text, List.append_assoc]
      refine drop_to (fun d hd => space_blank (h2 d hd)) ?_
      intro d q e
      rcases h4 with rfl | ⟨x, rfl⟩
      · rw [hr d q e]; rfl
      · cases e; rfl
    simp only [ed]
    rcases h4 with rfl | ⟨x, rfl⟩
    · cases rest with
      | nil => exact absurd rfl (hn _ rfl)
      | cons d q =>
        have := hr d q rfl; subst this
        exact ⟨_, rfl, rfl⟩
    · exact ⟨_, rfl, congrArg passNl (toNl_line h3 hr)⟩
  | define k w1 w2 v t =>
    obtain ⟨⟨c, r, rfl, h1, h2⟩, h3, h4, h5, h6, h7, h8⟩ := hl
    have e0 : (Line.define (c :: r) w1 w2 v t).text ++ rest = ((c :: r) ++ w1) ++ 61#8 :: (w2 ++ (v ++ (t ++ rest))) := by
      simp [Line.text, asc]
    have hc := key_not (h3 c (by simp))
    have hpk : peek junk (((c :: r) ++ w1) ++ 61#8 :: (w2 ++ (v ++ (t ++ rest)))) = c := rfl
    have hb := hc.1
    simp only [blank, Bool.or_eq_false_iff, decide_eq_false_iff_not] at hb
    rw [e0, confRow, hpk, if_neg (by rintro (h | h); exact hb.1.1 h; exact hb.1.2 h), if_neg h2, if_pos h1, keyRow]
    have hw : ∀ d ∈ (c :: r) ++ w1, (decide (d ≠ 10#8) && decide (d ≠ 61#8)) = true := by
      intro d hd
      rcases List.mem_append.1 hd with hd | hd
      · have := key_not (h3 d hd); simp [this.2.2.1, this.2.2.2.1]
      · rcases h4 d hd with rfl | rfl | rfl <;> rfl
    have hs : ∀ d q, 61#8 :: (w2 ++ (v ++ (t ++ rest))) = d :: q → (decide (d ≠ 10#8) && decide (d ≠ 61#8)) = false := by
      intro d q e; cases e; rfl
    have ek : upTo0 (trimKey ((c :: r) ++ w1)) = c :: r := by
      have : ((r ++ w1).reverse.dropWhile blank).reverse = r := by
        rw [List.reverse_append, drop_to]
        · simp
        · intro d hd; exact space_blank (h4 d (by simpa using hd))
        · intro d q e
          exact (key_not (h3 d (by
            have : d ∈ r.reverse := by rw [e]; simp
            simp at this; simp [this]))).1
      rw [List.cons_append, trimKey, this]
      exact upTo0_id (fun d hd => (key_not (h3 d hd)).2.1)
    have ev : (w2 ++ (v ++ (t ++ rest))).dropWhile blank = v ++ (t ++ rest) := by
      refine drop_to (fun d hd => space_blank (h5 d hd)) ?_
      intro d q e
      cases v with
      | nil =>
        rcases h8 rfl with rfl | ⟨x, rfl⟩
        · rw [hr d q e]; rfl
        · cases e; rfl
      | cons x v => cases e; exact (value_not (h6 d (by simp))).2.1
    have hv : ∀ d ∈ v, (!stops d) = true := fun d hd => by rw [(value_not (h6 d hd)).1]; rfl
    simp only [drop_to hw hs, take_all hw hs, ek, ev, take_all hv (tail_stop h7 hr), drop_to hv (tail_stop h7 hr)]
    rw [if_pos (by rfl)]
    exact ⟨_, by rw [upTo0_id (fun d hd => (value_not (h6 d hd)).2.2.1)]; rfl, afterVal_line junk h7 hr⟩
  | more w v t =>
    obtain ⟨⟨c, r, rfl, h1⟩, h2, h3, h4, h5⟩ := hl
    have hp : peek junk ((Line.more (c :: r) v t).text ++ rest) = 32#8 ∨ peek junk ((Line.more (c :: r) v t).text ++ rest) = 9#8 := by
      have := h2 c (by simp)
      simp only [Line.text, List.cons_append, peek, List.headD_cons]
      rcases this with h | h | h
      · exact Or.inl h
      · exact Or.inr h
      · exact absurd h h1
    rw [confRow, if_pos hp, spaceRow]
    obtain ⟨x, v, rfl⟩ := List.exists_cons_of_ne_nil h3
    have hx := value_not (h4 x (by simp))
    have ed : ((Line.more (c :: r) (x :: v) t).text ++ rest).dropWhile blank = x :: (v ++ (t ++ rest)) := by
      rw [Line.text, List.append_assoc, List.append_assoc]
      refine drop_to (fun d hd => space_blank (h2 d hd)) ?_
      intro d q e; cases e; exact hx.2.1
    have hv : ∀ d ∈ v, (!stops d) = true := fun d hd => by rw [(value_not (h4 d (by simp [hd]))).1]; rfl
    have hst := hx.1
    simp only [stops, Bool.or_eq_false_iff, decide_eq_false_iff_not] at hst
    have hpx : peek junk (x :: (v ++ (t ++ rest))) = x := rfl
    simp only [ed, hpx]
    rw [if_neg hst.1.2, if_neg hst.1.1]
    simp only [take_all hv (tail_stop h5 hr), drop_to hv (tail_stop h5 hr)]
    refine ⟨_, ?_, afterVal_line junk h5 hr⟩
    rw [upTo0_id (fun d hd => (value_not (h4 d hd)).2.2.1)]
    cases key with
    | none => rfl
    | some k => simp [lineKey, lineAdd, key_nonempty (hk k rfl)]

theorem keyOk_line {key : Option Str} (hk : KeyOk key) {l : Line} (hl : l.Ok) : KeyOk (lineKey key l) := by
  cases l with
  | define k w1 w2 v t =>
    obtain ⟨⟨c, r, rfl, _⟩, h3, _⟩ := hl
    rintro k ⟨rfl⟩
    exact ⟨c, r, rfl, h3 c (by simp)⟩
  | _ => exact hk

/-- The values added to the lists, or nothing if a key is not known. -/
def addAll : List (Str × Str) → Lists → Option Lists
  | [], c => some c
  | p :: ps, c => (addKeyVal c p.1 p.2).bind (addAll ps)

/-- What the outcome is. -/
def outcome : Option Lists → Load
  | none => .exit
  | some c => .code 0 c

theorem addAll_line (key : Option Str) {l : Line} (hl : l.Ok) (ls : List Line) (c : Lists) :
    addAll (pairs key (l :: ls)) c = ((match lineAdd key l with | none => some c | some kv => addKeyVal c kv.1 kv.2)).bind (addAll (pairs (lineKey key l) ls)) := by
  cases l with
  | define k w1 w2 v t =>
    simp only [pairs, lineAdd, lineKey]
    by_cases hv : v = []
    · subst hv; rw [if_pos rfl]; simp [addKeyVal, emptyStr]
    · rw [if_neg hv]; rfl
  | more w v t =>
    cases key with
    | none => simp [pairs, lineAdd, lineKey]
    | some k => simp [pairs, lineAdd, lineKey, addAll]
  | comment t => cases key <;> simp [pairs, lineAdd, lineKey]
  | heading t => cases key <;> simp [pairs, lineAdd, lineKey]
  | empty t => cases key <;> simp [pairs, lineAdd, lineKey]
  | spaces w t => cases key <;> simp [pairs, lineAdd, lineKey]

theorem text_start {l : Line} (hl : l.Ok) (he : ∀ t, l ≠ .empty t) : ∃ c r, l.text = c :: r ∧ c ≠ 13#8 ∧ c ≠ 10#8 := by
  cases l with
  | empty t => exact absurd rfl (he t)
  | comment t => exact ⟨35#8, t, rfl, by decide, by decide⟩
  | heading t => exact ⟨91#8, t, rfl, by decide, by decide⟩
  | spaces w t =>
    obtain ⟨⟨c, r, rfl, h1⟩, h2, _⟩ := hl
    refine ⟨c, r ++ t, rfl, h1, ?_⟩
    rcases h2 c (by simp) with rfl | rfl | rfl <;> decide
  | define k w1 w2 v t =>
    obtain ⟨⟨c, r, rfl, _⟩, h3, _⟩ := hl
    have := key_not (h3 c (by simp))
    refine ⟨c, r ++ (w1 ++ (asc "=" ++ (w2 ++ (v ++ t)))), by simp [Line.text], ?_, this.2.2.1⟩
    intro e; subst e; exact absurd this.1 (by decide)
  | more w v t =>
    obtain ⟨⟨c, r, rfl, h1⟩, h2, _⟩ := hl
    refine ⟨c, r ++ (v ++ t), by simp [Line.text], h1, ?_⟩
    rcases h2 c (by simp) with rfl | rfl | rfl <;> decide

theorem pass_line {l : Line} (hl : l.Ok) (he : ∀ t, l ≠ .empty t) (rest : Str) : passNl (l.text ++ rest) = l.text ++ rest := by
  obtain ⟨c, r, e, h1, h2⟩ := text_start hl he
  rw [e, List.cons_append, passNl, List.dropWhile_cons]; simp [h1, h2]

theorem passNl_le (s : Str) : (passNl s).length ≤ s.length := (List.dropWhile_suffix _).length_le

theorem loop_line (junk : Byte) (room : Nat) {key : Option Str} (hk : KeyOk key) {l : Line} (hl : l.Ok) (he : ∀ t, l ≠ .empty t) {rest : Str} (hr : Behind rest)
    (hn : ∀ w, l = .spaces w [] → rest ≠ []) (n : Nat) (c : Lists) :
    confLoop junk room (n + 1) key c (passNl (l.text ++ rest)) =
      match (match lineAdd key l with | none => some c | some kv => addKeyVal c kv.1 kv.2) with
      | none => .exit
      | some c => confLoop junk room n (lineKey key l) c (passNl rest) := by
  obtain ⟨r, e1, e2⟩ := row_line junk room hk hl he hr hn
  have hne : l.text ++ rest ≠ [] := by
    obtain ⟨c, q, e, _⟩ := text_start hl he
    rw [e]; simp
  rw [pass_line hl he, confLoop, if_neg hne, e1]
  have e2 : (r.dropWhile fun b => decide (b = 13#8) || decide (b = 10#8)) = passNl rest := e2
  simp only [e2]
  cases lineAdd key l <;> rfl

/-- The last line of a file may have no new line at its end. -/
def LastOk (last : Option Line) : Prop := ∀ l, last = some l → l.Ok ∧ (∀ t, l ≠ .empty t) ∧ ∀ w, l ≠ .spaces w []

theorem loop_lines (junk : Byte) (room : Nat) {last : Option Line} (hlast : LastOk last) (ls : List Line) (hls : ∀ l ∈ ls, l.Ok) (n : Nat) (key : Option Str) (hk : KeyOk key) (c : Lists)
    (hn : (passNl (fileText ls ++ (last.map Line.text).getD [])).length < n) :
    confLoop junk room n key c (passNl (fileText ls ++ (last.map Line.text).getD [])) = outcome (addAll (pairs key (ls ++ last.toList)) c) := by
  induction ls generalizing n key c with
  | nil =>
    cases last with
    | none =>
      cases n with
      | zero => omega
      | succ n => cases key <;> rfl
    | some l =>
      obtain ⟨h1, h2, h3⟩ := hlast l rfl
      cases n with
      | zero => omega
      | succ n =>
        have hlen : 0 < n := by
          obtain ⟨d, q, e, _⟩ := text_start h1 h2
          have := pass_line h1 h2 []
          rw [List.append_nil] at this
          have hn : (passNl l.text).length < n + 1 := by simpa [fileText] using hn
          rw [this, e, List.length_cons] at hn
          omega
        have := loop_line junk room hk h1 h2 (rest := []) (by intro c r e; cases e) (fun w e => absurd e (h3 w)) n c
        rw [List.append_nil] at this
        simp only [fileText, List.flatMap_nil, Option.map_some, Option.getD_some, List.nil_append, Option.toList_some, this]
        rw [addAll_line key h1]
        cases (match lineAdd key l with | none => some c | some kv => addKeyVal c kv.1 kv.2) with
        | none => rfl
        | some c1 =>
          obtain ⟨m, rfl⟩ : ∃ m, n = m + 1 := ⟨n - 1, by omega⟩
          cases hkk : lineKey key l <;> rfl
  | cons l ls ih =>
    have hl := hls l (by simp)
    have hls' : ∀ l ∈ ls, l.Ok := fun x hx => hls x (by simp [hx])
    have ef : fileText (l :: ls) ++ (last.map Line.text).getD [] = l.text ++ 10#8 :: (fileText ls ++ (last.map Line.text).getD []) := by
      simp [fileText]
    rw [ef] at hn ⊢
    by_cases he : ∃ t, l = .empty t
    · obtain ⟨t, rfl⟩ := he
      have e : passNl ((Line.empty t).text ++ 10#8 :: (fileText ls ++ (last.map Line.text).getD [])) = passNl (fileText ls ++ (last.map Line.text).getD []) := by
        rw [Line.text, passNl, drop_all (fun c hc => by rw [hl c hc]; rfl)]
        exact passNl_cons _
      rw [e] at hn ⊢
      rw [ih hls' n key hk c hn]
      cases key <;> simp [pairs]
    · have he : ∀ t, l ≠ .empty t := fun t e => he ⟨t, e⟩
      cases n with
      | zero => omega
      | succ n =>
        rw [loop_line junk room hk hl he (by intro c r e; cases e; rfl) (fun w _ => by simp), passNl_cons, List.cons_append, addAll_line key hl]
        cases (match lineAdd key l with | none => some c | some kv => addKeyVal c kv.1 kv.2) with
        | none => rfl
        | some c1 =>
          refine ih hls' n _ (keyOk_line hk hl) c1 ?_
          obtain ⟨d, q, e, _⟩ := text_start hl he
          rw [pass_line hl he, e] at hn
          have := passNl_le (fileText ls ++ (last.map Line.text).getD [])
          simp only [List.cons_append, List.length_cons, List.length_append] at hn this
          omega

/-- The first row, which may start with the end of a line. -/
theorem loop_start (junk : Byte) (room : Nat) {last : Option Line} (hlast : LastOk last) (ls : List Line) (hls : ∀ l ∈ ls, l.Ok) (c : Lists) (n : Nat)
    (hn : (fileText ls ++ (last.map Line.text).getD []).length < n) :
    confLoop junk room n none c (fileText ls ++ (last.map Line.text).getD []) = outcome (addAll (pairs none (ls ++ last.toList)) c) := by
  have hk : KeyOk none := by intro k e; cases e
  have key := loop_lines junk room hlast ls hls n none hk c (Nat.lt_of_le_of_lt (passNl_le _) hn)
  cases ls with
  | nil =>
    cases last with
    | none => exact key
    | some l =>
      obtain ⟨h1, h2, h3⟩ := hlast l rfl
      have := pass_line h1 h2 []
      rw [List.append_nil] at this
      simp only [fileText, List.flatMap_nil, Option.map_some, Option.getD_some, List.nil_append, this] at key ⊢
      exact key
  | cons l ls =>
    have hl := hls l (by simp)
    have ef : fileText (l :: ls) ++ (last.map Line.text).getD [] = l.text ++ 10#8 :: (fileText ls ++ (last.map Line.text).getD []) := by
      simp [fileText]
    by_cases he : ∃ t, l = .empty t
    · obtain ⟨t, rfl⟩ := he
      have hl : ∀ c ∈ t, c = 13#8 := hl
      have hlt : (passNl (fileText (.empty t :: ls) ++ (last.map Line.text).getD [])).length < (fileText (.empty t :: ls) ++ (last.map Line.text).getD []).length := by
        rw [ef, Line.text]
        have e : passNl (t ++ 10#8 :: (fileText ls ++ (last.map Line.text).getD [])) = passNl (fileText ls ++ (last.map Line.text).getD []) := by
          rw [passNl, drop_all (fun c hc => by rw [hl c hc]; rfl)]
          exact passNl_cons _
        have := passNl_le (fileText ls ++ (last.map Line.text).getD [])
        rw [e, List.length_append, List.length_cons]; omega
      cases n with
      | zero => omega
      | succ n =>
        have key := loop_lines junk room hlast (.empty t :: ls) hls n none hk c (by omega)
        rw [← key]
        generalize hF : fileText ls ++ (last.map Line.text).getD [] = F at ef
        rw [ef, confLoop, if_neg (by simp)]
        have hp : peek junk (t ++ 10#8 :: F) = 13#8 ∨ peek junk (t ++ 10#8 :: F) = 10#8 := by
          cases t with
          | nil => exact Or.inr rfl
          | cons d t => exact Or.inl (hl d (by simp))
        have ed : (t ++ 10#8 :: F).dropWhile (fun b => decide (b ≠ 10#8) && decide (b ≠ 61#8)) = 10#8 :: F := by
          refine drop_to (fun d hd => by rw [hl d hd]; rfl) ?_
          intro d q e; cases e; rfl
        have er : confRow junk room none ((Line.empty t).text ++ 10#8 :: F) = some ⟨none, none, 10#8 :: F⟩ := by
          rw [Line.text, confRow, if_neg (by rcases hp with h | h <;> rw [h] <;> decide), if_neg (by rcases hp with h | h <;> rw [h] <;> decide),
            if_pos (by rcases hp with h | h <;> rw [h] <;> decide), keyRow]
          simp only [ed]
          rw [if_neg (by show ¬ ((10#8 : Byte) = 61#8); decide)]
        rw [er]
        have e : passNl ((Line.empty t).text ++ 10#8 :: F) = passNl (10#8 :: F) := by
          rw [Line.text, passNl, drop_all (fun c hc => by rw [hl c hc]; rfl)]; rfl
        rw [e]; rfl
    · have he : ∀ t, l ≠ .empty t := fun t e => he ⟨t, e⟩
      rw [ef] at key ⊢
      rw [pass_line hl he] at key
      exact key

theorem pairs_ok (ls : List Line) (hls : ∀ l ∈ ls, l.Ok) (key : Option Str) : ∀ p ∈ pairs key ls, emptyStr p.2 = false := by
  have val : ∀ v : Str, v ≠ [] → (∀ c ∈ v, ValueByte c) → emptyStr v = false := by
    intro v hv h
    obtain ⟨c, r, rfl⟩ := List.exists_cons_of_ne_nil hv
    simp [emptyStr, (value_not (h c (by simp))).2.2.2.2]
  induction ls generalizing key with
  | nil => intro p hp; cases key <;> simp [pairs] at hp
  | cons l ls ih =>
    have ih := fun k => ih (fun x hx => hls x (by simp [hx])) k
    have hl := hls l (by simp)
    intro p hp
    cases l with
    | define k w1 w2 v t =>
      simp only [pairs] at hp
      by_cases hv : v = []
      · rw [if_pos hv] at hp; exact ih _ p hp
      · rw [if_neg hv] at hp
        rcases List.mem_cons.1 hp with rfl | hp
        · exact val v hv hl.2.2.2.2.1
        · exact ih _ p hp
    | more w v t =>
      cases key with
      | none => simp only [pairs] at hp; exact ih _ p hp
      | some k =>
        simp only [pairs] at hp
        rcases List.mem_cons.1 hp with rfl | hp
        · exact val v hl.2.2.1 hl.2.2.2.1
        · exact ih _ p hp
    | comment t => cases key <;> (simp only [pairs] at hp; exact ih _ p hp)
    | heading t => cases key <;> (simp only [pairs] at hp; exact ih _ p hp)
    | empty t => cases key <;> (simp only [pairs] at hp; exact ih _ p hp)
    | spaces w t => cases key <;> (simp only [pairs] at hp; exact ih _ p hp)

theorem addAll_known (ps : List (Str × Str)) (hv : ∀ p ∈ ps, emptyStr p.2 = false) (hk : ∀ p ∈ ps, p.1 ∈ confKeys) (c : Lists) :
    ∃ c', addAll ps c = some c' ∧ ∀ k, c' k = c k ++ valuesOf ps k := by
  induction ps generalizing c with
  | nil => exact ⟨c, rfl, by simp [valuesOf]⟩
  | cons p ps ih =>
    have h1 : addKeyVal c p.1 p.2 = some fun k => if k = p.1 then c k ++ [p.2] else c k := by
      rw [addKeyVal, if_neg (by rw [hv p (by simp)]; simp), if_pos (hk p (by simp))]
    obtain ⟨c', e, h⟩ := ih (fun q hq => hv q (by simp [hq])) (fun q hq => hk q (by simp [hq])) (fun k => if k = p.1 then c k ++ [p.2] else c k)
    refine ⟨c', by rw [addAll, h1]; exact e, fun k => ?_⟩
    rw [h k]
    by_cases hkk : p.1 = k
    · subst hkk; simp [valuesOf]
    · rw [if_neg (fun e => hkk e.symm)]; simp [valuesOf, hkk]

theorem addAll_unknown (ps : List (Str × Str)) (hv : ∀ p ∈ ps, emptyStr p.2 = false) {p : Str × Str} (hp : p ∈ ps) (hk : p.1 ∉ confKeys) (c : Lists) : addAll ps c = none := by
  induction ps generalizing c with
  | nil => cases hp
  | cons q ps ih =>
    rw [addAll, addKeyVal, if_neg (by rw [hv q (by simp)]; simp)]
    by_cases hq : q.1 ∈ confKeys
    · rw [if_pos hq, Option.bind_some]
      rcases List.mem_cons.1 hp with rfl | hp
      · exact absurd hq hk
      · exact ih (fun q hq => hv q (by simp [hq])) hp _
    · rw [if_neg hq]; rfl

theorem confSize_some (k size n : Nat) (h : n < size * 2 ^ k) : ∃ m, confSize (k + 1) size n = some m := by
  induction k generalizing size with
  | zero => exact ⟨size, by rw [confSize, if_neg (by simpa using h)]⟩
  | succ k ih =>
    rw [confSize]
    by_cases hs : size ≤ n
    · rw [if_pos hs]; exact ih _ (by rw [Nat.mul_assoc, ← Nat.pow_succ']; exact h)
    · rw [if_neg hs]; exact ⟨_, rfl⟩

theorem confSize_ok {n : Nat} (h : n < 512000) : ∃ size, confSize 10 1000 n = some size := confSize_some 9 1000 n (by simpa using h)

theorem known_iff (k : Str) : k ∈ confKeys ↔ Known k := by
  rw [show confKeys = knownKeys.map asc from by decide, List.mem_map]
  exact ⟨fun ⟨n, h, e⟩ => ⟨n, h, e.symm⟩, fun ⟨n, h, e⟩ => ⟨n, h, e.symm⟩⟩

/-- C77: from a configuration file the server takes for each key exactly the values that the file gives to it, in their order, and it does not start if there are values for a key that it
does not know. Comments, headings and empty lines do not matter; the last line needs no new line. Whatever is in memory behind the file does not matter. Partial: files of at least 512000 bytes
are read from freed memory (`C77_size_counterexample`); a last line of spaces without new line (`C77_spaces_counterexample`); lines without `=` are left out (`C77_line_counterexample`). -/
theorem C77_partial (junk : Byte) (c : Lists) (ls : List Line) (hls : ∀ l ∈ ls, l.Ok) (last : Option Line)
    (hlast : ∀ l, last = some l → l.Ok ∧ (∀ t, l ≠ .empty t) ∧ ∀ w, l ≠ .spaces w []) {file : Str} (hf : file = fileText ls ++ (last.map Line.text).getD [])
    (h0 : file ≠ []) (hlen : file.length < 512000) :
    ((∀ p ∈ pairs none (ls ++ last.toList), Known p.1) →
      ∃ c', loadConf junk c file = .code 0 c' ∧ ∀ k, c' k = c k ++ valuesOf (pairs none (ls ++ last.toList)) k) ∧
    ((∃ p ∈ pairs none (ls ++ last.toList), ¬ Known p.1) → loadConf junk c file = .exit) := by
  subst hf
  obtain ⟨size, hs⟩ := confSize_ok hlen
  have hall : ∀ l ∈ ls ++ last.toList, l.Ok := by
    intro l hl
    rcases List.mem_append.1 hl with h | h
    · exact hls l h
    · cases last with
      | none => simp at h
      | some x => simp at h; subst h; exact (hlast l rfl).1
  have e : loadConf junk c (fileText ls ++ (last.map Line.text).getD []) = outcome (addAll (pairs none (ls ++ last.toList)) c) := by
    rw [loadConf, if_neg h0, hs]
    exact loop_start junk _ hlast ls hls c _ (Nat.lt_succ_self _)
  rw [e]
  have hv := pairs_ok _ hall none
  constructor
  · intro hk
    obtain ⟨c', e1, e2⟩ := addAll_known _ hv (fun p hp => (known_iff _).2 (hk p hp)) c
    exact ⟨c', by rw [e1]; rfl, e2⟩
  · rintro ⟨p, hp, hk⟩
    rw [addAll_unknown _ hv hp (fun h => hk ((known_iff _).1 h))]; rfl

end WG.Serve
