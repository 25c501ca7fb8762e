import Verif.Yajl.Print
import Verif.Yajl.Api
import Verif.Json.Props
/-! # From bytes to the calls of the callbacks -/
namespace WG.Yajl
open WG.Json
open WG.Recs

variable {strtod : List Byte → Option Word} {ι σ : Type} {A : Alloc ι} {X : Ix ι} {C : Prop} {s : Db ι}

theorem feedG_handle (l : List Ev) (c : Ctx ι) : feedG (handle A X) l c = feed A X l c := by
  induction l generalizing c with
  | nil => rfl
  | cons e l ih =>
    rw [feedG, feed]
    cases handle A X c e with
    | none => rfl
    | some y =>
      obtain ⟨c', b⟩ := y
      cases b
      · rfl
      · exact ih c'

theorem feedG_check (l : List Ev) (d : Int) : ∃ d', feedG checkCb l d = some (d', (checkEvents l d).1) ∧ ((checkEvents l d).1 = true → d' = (checkEvents l d).2) := by
  induction l generalizing d with
  | nil => exact ⟨d, rfl, fun _ => rfl⟩
  | cons e l ih =>
    have push : ∀ z : Int, checkCb d e = some (z + 1, decide (¬ (maxDepth : Int) ≤ z + 1)) →
        checkEvents (e :: l) d = (if (maxDepth : Int) ≤ z + 1 then (false, z + 1) else checkEvents l (z + 1)) →
        ∃ d', feedG checkCb (e :: l) d = some (d', (checkEvents (e :: l) d).1) ∧ ((checkEvents (e :: l) d).1 = true → d' = (checkEvents (e :: l) d).2) := by
      intro z h1 h2
      rw [feedG, h1, h2]
      by_cases h : (maxDepth : Int) ≤ z + 1
      · rw [if_pos h, show decide (¬ (maxDepth : Int) ≤ z + 1) = false by simp [h]]
        exact ⟨_, rfl, fun h => absurd h (by simp)⟩
      · rw [if_neg h, show decide (¬ (maxDepth : Int) ≤ z + 1) = true by simp [h]]
        exact ih _
    cases e with
    | startMap => exact push (if d = -1 then 0 else d) rfl rfl
    | startArr => exact push (if d = -1 then 0 else d) rfl rfl
    | _ => exact ih _

/-- The result of a parse from the beginning. -/
theorem parse_eq {cb : σ → Ev → Option (σ × Bool)} {bs : List (List Byte)} (hb : ∀ b ∈ bs, b ≠ []) (c : σ) {evs : List Ev} {r : PR}
    (h : run strtod [.start] (bs.flatten ++ [0x20#8]) = some (evs, r)) :
    (parseBlocks strtod cb bs (yajlAlloc c)).map (fun y => (y.1.ctx, y.2)) = (feedG cb evs c).map fun y => (y.1, if y.2 then if r.good then .ok else .error else .canceled) := by
  have hs := parseBlocks_ok (cb := cb) (c := c) bs (holds_alloc c) hb (by simpa using h)
  cases hf : feedG cb evs c with
  | none => rw [hf] at hs; rw [show yajlAlloc c = ⟨[.start], (yajlAlloc c).lx, c⟩ from rfl, show parseBlocks strtod cb bs _ = none from hs]; rfl
  | some y =>
    obtain ⟨c', b⟩ := y
    rw [hf] at hs
    cases b with
    | false =>
      obtain ⟨h, e1, e2⟩ := hs
      rw [show yajlAlloc c = ⟨[.start], (yajlAlloc c).lx, c⟩ from rfl, e1]; simp [e2]
    | true =>
      obtain ⟨h, e1, e2⟩ := hs
      rw [show yajlAlloc c = ⟨[.start], (yajlAlloc c).lx, c⟩ from rfl, e1]; simp [e2]

theorem parseText_eq {txt : List Byte} {evs : List Ev} {r : PR} (h : run strtod [.start] (txt ++ [0x20#8]) = some (evs, r)) (p d : Bool) :
    parseText strtod A X s txt p d = (feed A X evs ⟨s, [], none, p, d⟩).map fun y => (y.1.db, if y.2 && r.good then 0 else -2, y.1.doc) := by
  obtain ⟨hb1, hb2⟩ := blocks_ok _ txt (Nat.le_refl _)
  have he := parse_eq (cb := handle A X) hb2 ⟨s, [], none, p, d⟩ (by rw [hb1]; exact h)
  rw [feedG_handle] at he
  unfold parseText
  cases hp : parseBlocks strtod (handle A X) (blocks txt.length txt) (yajlAlloc ⟨s, [], none, p, d⟩) with
  | none =>
    rw [hp] at he
    cases hf : feed A X evs ⟨s, [], none, p, d⟩ with
    | none => rfl
    | some y => rw [hf] at he; simp at he
  | some z =>
    rw [hp] at he
    cases hf : feed A X evs ⟨s, [], none, p, d⟩ with
    | none => rw [hf] at he; simp at he
    | some y =>
      rw [hf] at he
      simp only [Option.map_some, Option.some.injEq, Prod.mk.injEq] at he ⊢
      obtain ⟨e1, e2⟩ := he
      rw [e1, e2]
      cases y.2 <;> cases r.good <;> simp

theorem checkText_eq {txt : List Byte} {evs : List Ev} {r : PR} (h : run strtod [.start] (txt ++ [0x20#8]) = some (evs, r)) :
    checkText strtod txt = some (if r.good then checkJson evs else -1) := by
  obtain ⟨hb1, hb2⟩ := blocks_ok _ txt (Nat.le_refl _)
  have he := parse_eq (cb := checkCb) hb2 (-1) (by rw [hb1]; exact h)
  obtain ⟨d', f1, f2⟩ := feedG_check evs (-1)
  rw [f1] at he
  unfold checkText
  cases hp : parseBlocks strtod checkCb (blocks txt.length txt) (yajlAlloc (-1)) with
  | none => rw [hp] at he; simp at he
  | some z =>
    rw [hp] at he
    simp only [Option.map_some, Option.some.injEq, Prod.mk.injEq] at he ⊢
    obtain ⟨e1, e2⟩ := he
    rw [e1, e2]
    unfold checkJson
    cases hc : (checkEvents evs (-1)).1 with
    | false => simp [hc]
    | true => rw [f2 hc]; cases r.good <;> simp [hc]

/-! ## A value that is not an array or object -/

theorem feed_literal (hr : Reach C X s) (hg : X.Good) (hA : A.Ok) (p d : Bool) {j : J} (hj : j.isText = false) (hroom : CellRoom A C X s (7 * 3)) :
    ∃ y, feed A X j.events ⟨s, [], none, p, d⟩ = some y := by
  have lit : ∀ ev w h1, handle A X ⟨s, [], none, p, d⟩ ev = (if w = illegal then some ({ db := h1, stack := [], doc := none, param := p, isdoc := d }, false) else
      addLiteral A X { db := h1, stack := [], doc := none, param := p, isdoc := d } w) → ∃ y, feed A X [ev] ⟨s, [], none, p, d⟩ = some y := by
    intro ev w h1 h
    rw [feed, h]
    split_ifs
    · exact ⟨_, rfl⟩
    · exact ⟨_, rfl⟩
  cases j with
  | null => exact ⟨_, rfl⟩
  | bool b => exact ⟨_, rfl⟩
  | int v => exact lit _ _ _ rfl
  | dbl v => exact lit _ _ _ rfl
  | str x =>
    obtain ⟨_, _, _, e, _⟩ := C54_import (p := p) (d := d) hr hg hA (.arr (.cons (.str x) .nil)) rfl hroom
    cases hs : encUnistr s.h (cut x) none 5#64 (A.str s (cut x)) with
    | none =>
      exfalso
      simp [runParser, J.events, JArr.events, feed, handle, push, maxDepth, hs] at e
    | some y =>
      obtain ⟨h1, w⟩ := y
      exact lit _ w ⟨h1, s.ix⟩ (by simp only [handle, hs])
  | arr a => cases hj
  | obj m => cases hj

theorem CellRoom.mono {N M : Nat} (h : CellRoom A C X s M) (hn : N ≤ M) : CellRoom A C X s N := fun k s' hs hk => h k s' hs (by omega)

/-- Whatever the calls are: the database stays correct. -/
theorem feed_any (hr : Reach C X s) (hg : X.Good) (hA : A.Ok) (p d : Bool) {evs : List Ev} {j : J} {N : Nat} (hpre : evs <+: j.events)
    (hj : j.isText = true ∨ evs = [] ∨ evs = j.events) (hN : 7 * j.events.length ≤ N) (h21 : 21 ≤ N) (hroom : CellRoom A C X s N) :
    ∃ y, feed A X evs ⟨s, [], none, p, d⟩ = some y ∧ Reach C X y.1.db ∧ Untouched s.h y.1.db.h := by
  have hdef : ∃ y, feed A X evs ⟨s, [], none, p, d⟩ = some y := by
    by_cases ht : j.isText = true
    · obtain ⟨_, _, _, e, _⟩ := C54_broken_text hr hg hA j ht (CellRoom.mono hroom hN) p d hpre
      unfold runParser at e
      cases hf : feed A X evs ⟨s, [], none, p, d⟩ with
      | none => rw [hf] at e; cases e
      | some y => exact ⟨y, rfl⟩
    · rcases hj with hj | rfl | rfl
      · exact absurd hj ht
      · exact ⟨_, rfl⟩
      · exact feed_literal hr hg hA p d (by simpa using ht) (CellRoom.mono hroom h21)
  obtain ⟨y, hy⟩ := hdef
  have hl : evs.length ≤ j.events.length := hpre.length_le
  obtain ⟨g1, k', g2⟩ := feed_safe ⟨hg, hA, hroom⟩ evs (k := 0) ⟨LInv.start hr, by simp⟩ (by simp [loose]; omega) hy
  exact ⟨y, hy, g2.steps.reach hr, g1.untouched (reach_inv hr)⟩

/-! ## Files -/

theorem blocks_fuel : ∀ (n m : Nat) (l : List Byte), l.length ≤ n → l.length ≤ m → blocks n l = blocks m l
  | 0, m, l, h, _ => by
    rw [List.length_eq_zero_iff.1 (Nat.le_zero.1 h)]
    cases m <;> simp [blocks]
  | n + 1, 0, l, _, h => by
    rw [List.length_eq_zero_iff.1 (Nat.le_zero.1 h)]
    simp [blocks]
  | n + 1, m + 1, l, h1, h2 => by
    rw [blocks, blocks]
    split_ifs with hl
    · rfl
    · have hp := List.length_pos_iff.2 hl
      rw [blocks_fuel n m _ (by rw [List.length_drop]; omega) (by rw [List.length_drop]; omega)]

/-- wg_parse_json_file checks the file as wg_check_json would, block by block. -/
theorem fileLoop_ok (A : Alloc ι) (X : Ix ι) (s : Db ι) : ∀ (n : Nat) (rest buf : List Byte) (h : Hand Int), rest.length / 16384 + 2 ≤ n → rest.length % 16384 ≠ 0 →
    ((match fileLoop strtod n rest false buf h with
      | none => none
      | some (.inl c) => some (s, c)
      | some (.inr (buf, h)) => match yajlComplete strtod checkCb h with
        | none => none
        | some (h, st) =>
          if st ≠ Status.ok then some (s, -1)
          else if h.ctx = -1 then some (s, -1)
          else (parseText strtod A X s (cut buf) false true).map fun y => (y.1, y.2.1)) : Option (Db ι × Int)) =
    match parseBlocks strtod checkCb (blocks rest.length rest) h with
      | none => none
      | some (h, st) =>
        if st ≠ .ok then some (s, -1)
        else if h.ctx = -1 then some (s, -1)
        else (parseText strtod A X s (cut (buf ++ rest)) false true).map fun y => (y.1, y.2.1) := by
  intro n
  induction n with
  | zero => intro rest buf h hn; omega
  | succ n ih =>
    intro rest buf h hn hm
    have hpos : 0 < rest.length := by
      rcases Nat.eq_zero_or_pos rest.length with h0 | h0
      · rw [h0] at hm; exact absurd rfl hm
      · exact h0
    obtain ⟨m, hmm⟩ : ∃ m, rest.length = m + 1 := ⟨rest.length - 1, by omega⟩
    have hlen : (rest.take 16384).length = min 16384 rest.length := List.length_take
    rw [fileLoop, if_neg (by simp), hmm, blocks, if_neg (List.length_pos_iff.1 hpos), parseBlocks]
    dsimp only
    rw [if_neg (by rw [hlen]; omega)]
    cases hy : yajlParse strtod checkCb h (rest.take 16384) with
    | none => rfl
    | some z =>
      obtain ⟨h', st⟩ := z
      cases st with
      | ok =>
        dsimp only
        by_cases hs : rest.length < 16384
        · obtain ⟨n', rfl⟩ : ∃ n', n = n' + 1 := ⟨n - 1, by omega⟩
          rw [show decide ((rest.take 16384).length < 16384) = true by rw [hlen]; simp; omega, fileLoop, if_pos rfl, List.drop_eq_nil_of_le (by omega),
            List.take_of_length_le (by omega)]
          cases m <;> rfl
        · rw [show decide ((rest.take 16384).length < 16384) = false by rw [hlen]; simp; omega, ih _ _ _ (by rw [List.length_drop]; omega) (by rw [List.length_drop]; omega),
            blocks_fuel m _ _ (by rw [List.length_drop]; omega) (Nat.le_refl _), List.append_assoc, List.take_append_drop]
      | canceled => rfl
      | error => rfl

/-- A file whose length is a multiple of the block size. -/
theorem fileLoop_full : ∀ (n : Nat) (rest buf : List Byte) (h : Hand Int), rest.length / 16384 + 2 ≤ n → rest.length % 16384 = 0 →
    fileLoop strtod n rest false buf h = none ∨ fileLoop strtod n rest false buf h = some (.inl 0) ∨ fileLoop strtod n rest false buf h = some (.inl (-1)) := by
  intro n
  induction n with
  | zero => intro rest buf h hn; omega
  | succ n ih =>
    intro rest buf h hn hm
    have hlen : (rest.take 16384).length = min 16384 rest.length := List.length_take
    rw [fileLoop, if_neg (by simp)]
    dsimp only
    split_ifs with h0
    · exact Or.inr (Or.inl rfl)
    · rw [hlen] at h0
      cases hy : yajlParse strtod checkCb h (rest.take 16384) with
      | none => exact Or.inl rfl
      | some z =>
        obtain ⟨h', st⟩ := z
        cases st with
        | ok =>
          dsimp only
          rw [show decide ((rest.take 16384).length < 16384) = false by rw [hlen]; simp; omega]
          exact ih _ _ _ (by rw [List.length_drop]; omega) (by rw [List.length_drop]; omega)
        | canceled => exact Or.inr (Or.inr rfl)
        | error => exact Or.inr (Or.inr rfl)

end WG.Yajl
