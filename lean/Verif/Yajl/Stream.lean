import Verif.Yajl.Lex
/-! # The parser as a function of the whole text -/
namespace WG.Yajl
open WG.Json (Ev)
open WG.Recs (Byte)

/-- State of the parser at the end of a text: it expects more, with the states of the stack and the bytes of an unfinished token; or it has failed. -/
inductive PR
  | more (st : List St) (q : List Byte)
  | bad

/-- The calls of the callbacks that the parser makes for the bytes `l`, if none cancels, and its state at the end. -/
def run (strtod : List Byte → Option (BitVec 64)) (st : List St) (l : List Byte) : Option (List Ev × PR) :=
  match st with
  | [] => none
  | s :: rest =>
    if s = .complete then
      if l = [] then some ([], .more (s :: rest) []) else match lexP l with
        | .eof q => some ([], .more (s :: rest) q)
        | _ => some ([], .bad)
    else if s = .lexError ∨ s = .parseError then some ([], .bad)
    else match h : lexP l with
      | .eof q => some ([], .more (s :: rest) q)
      | .err => some ([], .bad)
      | .ok t raw r => match onTok strtod s rest t (body t raw) with
        | none => none
        | some .ret => none
        | some (.go none st') => run strtod st' r
        | some (.go (some ev) st') => (run strtod st' r).map fun y => (ev :: y.1, y.2)
termination_by l.length
decreasing_by
  · exact (lexP_ok h).1
  · exact (lexP_ok h).1

variable {strtod : List Byte → Option (BitVec 64)}

theorem run_complete {rest : List St} {l : List Byte} : run strtod (.complete :: rest) l = match lexP l with
    | .eof q => some ([], .more (.complete :: rest) q)
    | _ => some ([], .bad) := by
  rw [run.eq_def]
  dsimp only
  rw [if_pos rfl]
  split_ifs with hl
  · subst hl; rw [lexP_nil]
  · rfl

theorem run_bad {s : St} {rest : List St} {l : List Byte} (h : s = .lexError ∨ s = .parseError) : run strtod (s :: rest) l = some ([], .bad) := by
  rw [run.eq_def]
  dsimp only
  rw [if_neg (by rcases h with rfl | rfl <;> decide), if_pos h]

theorem run_tok {s : St} {rest : List St} {l : List Byte} (h1 : s ≠ .complete) (h2 : ¬ (s = .lexError ∨ s = .parseError)) : run strtod (s :: rest) l = match lexP l with
    | .eof q => some ([], .more (s :: rest) q)
    | .err => some ([], .bad)
    | .ok t raw r => match onTok strtod s rest t (body t raw) with
      | none => none
      | some .ret => none
      | some (.go none st') => run strtod st' r
      | some (.go (some ev) st') => (run strtod st' r).map fun y => (ev :: y.1, y.2) := by
  rw [run.eq_def]
  dsimp only
  rw [if_neg h1, if_neg h2]
  split <;> rename_i h <;> rw [h]

/-! ## The text can be cut anywhere -/

theorem run_append' : ∀ (n : Nat) {st : List St} {l : List Byte}, l.length ≤ n → ∀ (x : List Byte), match run strtod st l with
    | none => run strtod st (l ++ x) = none
    | some (evs, .more st' q) => run strtod st (l ++ x) = (run strtod st' (q ++ x)).map fun y => (evs ++ y.1, y.2)
    | some (evs, .bad) => run strtod st (l ++ x) = some (evs, .bad) := by
  intro n
  induction n with
  | zero =>
    intro st l hn x
    rw [List.length_eq_zero_iff.1 (Nat.le_zero.1 hn), List.nil_append]
    cases st with
    | nil => rw [run]; dsimp only; rw [run]
    | cons s rest =>
      by_cases h1 : s = .complete
      · subst h1; rw [run_complete, lexP_nil]; simp
      · by_cases h2 : s = .lexError ∨ s = .parseError
        · rw [run_bad h2]; dsimp only; rw [run_bad h2]
        · rw [run_tok h1 h2, lexP_nil]; simp
  | succ n ih =>
    intro st l hn x
    cases st with
    | nil => rw [run]; dsimp only; rw [run]
    | cons s rest =>
      by_cases h1 : s = .complete
      · subst h1
        rw [run_complete, run_complete]
        cases hl : lexP l with
        | eof q => dsimp only; rw [run_complete, (lexP_eof hl).2.2]; simp
        | err => dsimp only; rw [lexP_err hl]
        | ok t raw r => dsimp only; rw [(lexP_ok hl).2]
      · by_cases h2 : s = .lexError ∨ s = .parseError
        · rw [run_bad h2]; dsimp only; rw [run_bad h2]
        · rw [run_tok h1 h2, run_tok h1 h2]
          cases hl : lexP l with
          | eof q => dsimp only; rw [run_tok h1 h2, (lexP_eof hl).2.2]; simp
          | err => dsimp only; rw [lexP_err hl]
          | ok t raw r =>
            dsimp only
            obtain ⟨h3, h4⟩ := lexP_ok hl
            rw [h4]
            dsimp only
            cases ho : onTok strtod s rest t (body t raw) with
            | none => rfl
            | some a =>
              cases a with
              | ret => rfl
              | go ev st' =>
                have := ih (st := st') (l := r) (by omega) x
                cases ev with
                | none => exact this
                | some ev =>
                  dsimp only
                  revert this
                  cases run strtod st' r with
                  | none => intro this; dsimp only [Option.map_none] at this ⊢; rw [this]; rfl
                  | some y =>
                    obtain ⟨evs, res⟩ := y
                    cases res with
                    | bad => intro this; dsimp only [Option.map_some] at this ⊢; rw [this]; rfl
                    | more st'' q =>
                      intro this
                      dsimp only [Option.map_some] at this ⊢
                      rw [this, Option.map_map]
                      rfl

theorem run_more {st st' : List St} {l q : List Byte} {evs : List Ev} (h : run strtod st l = some (evs, .more st' q)) (x : List Byte) :
    run strtod st (l ++ x) = (run strtod st' (q ++ x)).map fun y => (evs ++ y.1, y.2) := by
  have := run_append' (strtod := strtod) _ (Nat.le_refl l.length) (st := st) x; rwa [h] at this

theorem run_bad_app {st : List St} {l : List Byte} {evs : List Ev} (h : run strtod st l = some (evs, .bad)) (x : List Byte) : run strtod st (l ++ x) = some (evs, .bad) := by
  have := run_append' (strtod := strtod) _ (Nat.le_refl l.length) (st := st) x; rwa [h] at this

theorem run_none {st : List St} {l : List Byte} (h : run strtod st l = none) (x : List Byte) : run strtod st (l ++ x) = none := by
  have := run_append' (strtod := strtod) _ (Nat.le_refl l.length) (st := st) x; rwa [h] at this

/-! ## yajl_do_parse computes `run` -/

variable {σ : Type} {cb : σ → Ev → Option (σ × Bool)}

/-- The callbacks for a list of calls, until one cancels. -/
def feedG (cb : σ → Ev → Option (σ × Bool)) : List Ev → σ → Option (σ × Bool)
  | [], c => some (c, true)
  | e :: l, c => match cb c e with
    | none => none
    | some (c', true) => feedG cb l c'
    | some (c', false) => some (c', false)

theorem feedG_append (l1 l2 : List Ev) (c : σ) : feedG cb (l1 ++ l2) c = match feedG cb l1 c with
    | some (c', true) => feedG cb l2 c'
    | y => y := by
  induction l1 generalizing c with
  | nil => rfl
  | cons e l1 ih =>
    rw [List.cons_append, feedG, feedG]
    cases cb c e with
    | none => rfl
    | some y => obtain ⟨c', _ | _⟩ := y <;> [rfl; exact ih c']

/-- The lexer holds the bytes `q` of an unfinished token. -/
def Holds (x : Lx) (q : List Byte) : Prop := (x.inUse = true ∧ x.bufOff = 0 ∧ x.buf = q ∧ Pend q) ∨ (x.inUse = false ∧ q = [])

/-- The outcome of yajl_do_parse if the callbacks have the outcome `f` and the parser ends in state `r`. -/
def ParseSim (y : Option (Hand σ × Status)) (f : Option (σ × Bool)) (r : PR) : Prop :=
  match f with
  | none => y = none
  | some (c, false) => ∃ h, y = some (h, .canceled) ∧ h.ctx = c
  | some (c, true) => match r with
    | .more st q => ∃ h, y = some (h, .ok) ∧ h.ctx = c ∧ h.stack = st ∧ Holds h.lx q
    | .bad => ∃ h, y = some (h, .error) ∧ h.ctx = c

theorem rest_lt_fuel {x : Lx} (hk : Head x) : x.rest.length < x.fuel := by
  rw [hk.rest, Lx.fuel, List.length_append, List.length_drop]
  split_ifs
  · omega
  · rw [List.length_nil]; omega

theorem Holds.of_eof {z : Lx} {l q : List Byte} (h1 : z.inUse = true) (h2 : z.bufOff = 0) (h3 : z.buf = q) (hl : lexP l = .eof q) : Holds z q :=
  Or.inl ⟨h1, h2, h3, (lexP_eof hl).1⟩

/-- The tokens the lexer returns. -/
theorem lexP_tok' : ∀ (n : Nat) {l : List Byte}, l.length ≤ n → ∀ {t : Tok} {raw r : List Byte}, lexP l = .ok t raw r → t ≠ .eof ∧ t ≠ .error := by
  intro n
  induction n with
  | zero =>
    intro l hn t raw r h
    rw [List.length_eq_zero_iff.1 (Nat.le_zero.1 hn), lexP_nil] at h; cases h
  | succ n ih =>
    intro l hn t raw r h
    induction l using lexP_cases with
    | hn => rw [lexP_nil] at h; cases h
    | hs c t' l h' =>
      rw [lexP_single h'] at h
      cases h
      unfold single at h'
      split_ifs at h' <;> cases h' <;> decide
    | hw c l hw => rw [lexP_ws hw] at h; exact ih (by rw [List.length_cons] at hn; omega) h
    | hc l =>
      rw [lexP_com] at h
      rw [List.length_cons] at hn
      cases hc : comP l with
      | eof => rw [hc] at h; cases h
      | err => rw [hc] at h; cases h
      | ok t' r' => rw [hc] at h; exact ih (by have := comP_len hc; omega) h
    | hl c l h1 h2 h3 =>
      rw [lexP_long h1 h2 h3] at h
      cases hc : longP c l with
      | eof => rw [hc] at h; cases h
      | err => rw [hc] at h; cases h
      | ok t' r' => rw [hc] at h; cases h; exact longP_tok hc

theorem onTok_error {s : St} {rest : List St} {raw : List Byte} : onTok strtod s rest .error raw = some (.go none (.lexError :: rest)) := by
  cases s <;> rfl

theorem onTok_eof {s : St} {rest : List St} {raw : List Byte} : onTok strtod s rest .eof raw = some .ret := by
  cases s <;> rfl

theorem doParse_bad {n : Nat} {s : St} {rest : List St} {x : Lx} {c : σ} (h : s = .lexError ∨ s = .parseError) :
    doParse strtod cb (n + 1) ⟨s :: rest, x, c⟩ = some (⟨s :: rest, x, c⟩, .error) := by
  rcases h with rfl | rfl <;> rw [doParse]

theorem doParse_tok {n : Nat} {s : St} {rest : List St} {x : Lx} {c : σ} (h1 : s ≠ .complete) (h2 : ¬ (s = .lexError ∨ s = .parseError)) :
    doParse strtod cb (n + 1) ⟨s :: rest, x, c⟩ = match lexLex x.fuel x.off x with
      | none => none
      | some (t, raw, x) => match onTok strtod s rest t raw with
        | none => none
        | some .ret => some (⟨s :: rest, x, c⟩, .ok)
        | some (.go none st) => doParse strtod cb n ⟨st, x, c⟩
        | some (.go (some ev) st) => match cb c ev with
          | none => none
          | some (c, false) => some (⟨.parseError :: rest, x, c⟩, .canceled)
          | some (c, true) => doParse strtod cb n ⟨st, x, c⟩ := by
  cases s <;> first | exact absurd rfl h1 | exact absurd (Or.inl rfl) h2 | exact absurd (Or.inr rfl) h2 | (rw [doParse]; rfl)

theorem doParse_ok : ∀ (n : Nat) {st : List St} {x : Lx} (c : σ), Head x → x.rest.length + 2 ≤ n → ∀ {evs : List Ev} {r : PR}, run strtod st x.rest = some (evs, r) →
    ParseSim (doParse strtod cb n ⟨st, x, c⟩) (feedG cb evs c) r
  | 0, st, x, c, _, hn, _, _, _ => by omega
  | n + 1, [], x, c, hk, hn, evs, r, hr => by rw [run] at hr; cases hr
  | n + 1, s :: rest, x, c, hk, hn, evs, r, hr => by
    have hsim := lexLex_ok x.fuel hk (rest_lt_fuel hk)
    by_cases h1 : s = .complete
    · subst h1
      rw [run_complete] at hr
      rw [doParse]
      dsimp only
      by_cases ho : x.off ≠ x.text.length
      · rw [if_pos ho]
        cases hl : lexP x.rest with
        | eof q =>
          rw [hl] at hr hsim
          cases hr
          obtain ⟨z, f1, f2, f3, f4, f5, f6⟩ := hsim
          rw [f1]
          dsimp only
          obtain ⟨m, rfl⟩ : ∃ m, n = m + 1 := ⟨n - 1, by omega⟩
          rw [if_neg (show ¬ Tok.eof ≠ .eof by decide), doParse]
          dsimp only
          rw [if_neg (show ¬ z.off ≠ z.text.length from fun h => h f6)]
          exact ⟨_, rfl, rfl, rfl, Holds.of_eof f2 f3 f4 hl⟩
        | err =>
          rw [hl] at hr hsim
          cases hr
          obtain ⟨raw, z, f1⟩ := hsim
          rw [f1]
          dsimp only
          obtain ⟨m, rfl⟩ : ∃ m, n = m + 1 := ⟨n - 1, by omega⟩
          rw [if_pos (show Tok.error ≠ .eof by decide), doParse_bad (Or.inr rfl)]
          exact ⟨_, rfl, rfl⟩
        | ok t raw r' =>
          rw [hl] at hr hsim
          cases hr
          obtain ⟨z, f1, -⟩ := hsim
          rw [f1]
          dsimp only
          obtain ⟨m, rfl⟩ : ∃ m, n = m + 1 := ⟨n - 1, by omega⟩
          rw [if_pos (lexP_tok' _ (Nat.le_refl _) hl).1, doParse_bad (Or.inr rfl)]
          exact ⟨_, rfl, rfl⟩
      · rw [if_neg ho]
        have ho' : x.off = x.text.length := by simpa using ho
        have hb : x.inUse = true → x.buf = [] := fun hu => by
          by_contra hb
          obtain ⟨g1, g2⟩ := hk.first hu hb
          have := List.length_pos_iff.2 g2
          omega
        have hrest : x.rest = [] := by
          rw [hk.rest, ho', List.drop_length, List.append_nil]
          split_ifs with hu
          · exact hb hu
          · rfl
        rw [hrest, lexP_nil] at hr
        cases hr
        refine ⟨_, rfl, rfl, rfl, ?_⟩
        cases hu : x.inUse with
        | true => exact Or.inl ⟨hu, hk.zero hu, hb hu, .nil⟩
        | false => exact Or.inr ⟨hu, rfl⟩
    · by_cases h2 : s = .lexError ∨ s = .parseError
      · rw [run_bad h2] at hr
        cases hr
        rw [doParse_bad h2]
        exact ⟨_, rfl, rfl⟩
      · rw [run_tok h1 h2] at hr
        rw [doParse_tok h1 h2]
        cases hl : lexP x.rest with
        | eof q =>
          rw [hl] at hr hsim
          cases hr
          obtain ⟨z, f1, f2, f3, f4, f5, f6⟩ := hsim
          rw [f1]
          dsimp only
          rw [onTok_eof]
          exact ⟨_, rfl, rfl, rfl, Holds.of_eof f2 f3 f4 hl⟩
        | err =>
          rw [hl] at hr hsim
          cases hr
          obtain ⟨raw, z, f1⟩ := hsim
          rw [f1]
          dsimp only
          rw [onTok_error]
          dsimp only
          obtain ⟨m, rfl⟩ : ∃ m, n = m + 1 := ⟨n - 1, by omega⟩
          rw [doParse_bad (Or.inl rfl)]
          exact ⟨_, rfl, rfl⟩
        | ok t raw r' =>
          rw [hl] at hr hsim
          obtain ⟨z, f1, f2, f3, f4, f5⟩ := hsim
          rw [f1]
          dsimp only at hr ⊢
          have hkz : Head z := ⟨f4, by simp [f2], by simp [f2], by simp [f2]⟩
          have hrz : z.rest = r' := by rw [hkz.rest, f2, ← f5]; simp
          have hlen := (lexP_ok hl).1
          cases ho : onTok strtod s rest t (body t raw) with
          | none => rw [ho] at hr; cases hr
          | some a =>
            rw [ho] at hr
            cases a with
            | ret => cases hr
            | go ev st' =>
              cases ev with
              | none =>
                dsimp only at hr ⊢
                rw [← hrz] at hr
                exact doParse_ok n c hkz (by rw [hrz]; omega) hr
              | some ev =>
                dsimp only at hr ⊢
                rw [← hrz] at hr
                cases hru : run strtod st' z.rest with
                | none => rw [hru] at hr; cases hr
                | some y =>
                  obtain ⟨evs', r''⟩ := y
                  rw [hru] at hr
                  cases hr
                  rw [feedG]
                  cases hc : cb c ev with
                  | none => rfl
                  | some y =>
                    obtain ⟨c', b⟩ := y
                    cases b with
                    | false => exact ⟨_, rfl, rfl⟩
                    | true => exact doParse_ok n c' hkz (by rw [hrz]; omega) hru

theorem yajlParse_ok {st : List St} {x : Lx} {c : σ} {q b : List Byte} (hq : Holds x q) (hb : b ≠ []) {evs : List Ev} {r : PR} (hr : run strtod st (q ++ b) = some (evs, r)) :
    ParseSim (yajlParse strtod cb ⟨st, x, c⟩ b) (feedG cb evs c) r := by
  unfold yajlParse
  dsimp only
  have hk : Head { x with text := b, off := 0 } := by
    rcases hq with ⟨h1, h2, h3, h4⟩ | ⟨h1, h2⟩
    · exact ⟨Nat.zero_le _, fun _ => h2, fun _ => by rw [h3]; exact h4, fun _ _ => ⟨rfl, hb⟩⟩
    · exact ⟨Nat.zero_le _, by simp [h1], by simp [h1], by simp [h1]⟩
  have hrest : ({ x with text := b, off := 0 } : Lx).rest = q ++ b := by
    rw [hk.rest, List.drop_zero]
    rcases hq with ⟨h1, h2, h3, h4⟩ | ⟨h1, h2⟩
    · simp [h1, h3]
    · simp [h1, h2]
  rw [← hrest] at hr
  refine doParse_ok _ c hk ?_ hr
  rw [hrest, List.length_append]
  rcases hq with ⟨h1, h2, h3, h4⟩ | ⟨h1, h2⟩
  · rw [h3]; omega
  · rw [h2, List.length_nil]; omega

/-- The state at the end means that the text is accepted. -/
def PR.good : PR → Bool
  | .more (.complete :: _) _ => true
  | .more (.gotValue :: _) _ => true
  | _ => false

/-- The outcome of a whole parse. -/
def WholeSim (y : Option (Hand σ × Status)) (f : Option (σ × Bool)) (r : PR) : Prop :=
  match f with
  | none => y = none
  | some (c, false) => ∃ h, y = some (h, .canceled) ∧ h.ctx = c
  | some (c, true) => ∃ h, y = some (h, if r.good then .ok else .error) ∧ h.ctx = c

theorem yajlComplete_ok {st : List St} {x : Lx} {c : σ} {q : List Byte} (hq : Holds x q) {evs : List Ev} {r : PR} (hr : run strtod st (q ++ [0x20#8]) = some (evs, r)) :
    WholeSim (yajlComplete strtod cb ⟨st, x, c⟩) (feedG cb evs c) r := by
  unfold yajlComplete
  have := yajlParse_ok (cb := cb) (c := c) hq (by simp) hr
  cases hf : feedG cb evs c with
  | none => rw [hf] at this; rw [show yajlParse strtod cb _ _ = none from this]; rfl
  | some y =>
    obtain ⟨c', b⟩ := y
    rw [hf] at this
    cases b with
    | false =>
      obtain ⟨h, e1, e2⟩ := this
      rw [e1]; exact ⟨h, rfl, e2⟩
    | true =>
      cases r with
      | bad => obtain ⟨h, e1, e2⟩ := this; rw [e1]; exact ⟨h, rfl, e2⟩
      | more st' q' =>
        obtain ⟨h, e1, e2, e3, e4⟩ := this
        rw [e1]
        dsimp only
        rw [e3]
        rcases st' with _ | ⟨s, st'⟩
        · exact ⟨h, rfl, e2⟩
        · cases s <;> exact ⟨h, rfl, e2⟩

/-- The blocks in which the text is passed do not matter. -/
theorem parseBlocks_ok : ∀ (bs : List (List Byte)) {st : List St} {x : Lx} {c : σ} {q : List Byte}, Holds x q → (∀ b ∈ bs, b ≠ []) → ∀ {evs : List Ev} {r : PR},
    run strtod st (q ++ bs.flatten ++ [0x20#8]) = some (evs, r) → WholeSim (parseBlocks strtod cb bs ⟨st, x, c⟩) (feedG cb evs c) r
  | [], st, x, c, q, hq, _, evs, r, hr => by
    rw [parseBlocks]
    rw [List.flatten_nil, List.append_nil] at hr
    exact yajlComplete_ok hq hr
  | b :: bs, st, x, c, q, hq, hb, evs, r, hr => by
    rw [parseBlocks]
    rw [List.flatten_cons, ← List.append_assoc, List.append_assoc _ _ [0x20#8]] at hr
    cases h1 : run strtod st (q ++ b) with
    | none => rw [run_none h1] at hr; cases hr
    | some y =>
      obtain ⟨evs1, r1⟩ := y
      have h2 := yajlParse_ok (cb := cb) (c := c) hq (hb b (by simp)) h1
      cases r1 with
      | bad =>
        rw [run_bad_app h1] at hr
        cases hr
        cases hf : feedG cb evs c with
        | none => rw [hf] at h2; rw [show yajlParse strtod cb _ _ = none from h2]; rfl
        | some y =>
          obtain ⟨c', b⟩ := y
          rw [hf] at h2
          cases b with
          | false => obtain ⟨h, e1, e2⟩ := h2; rw [e1]; exact ⟨h, rfl, e2⟩
          | true => obtain ⟨h, e1, e2⟩ := h2; rw [e1]; exact ⟨h, rfl, e2⟩
      | more st' q' =>
        rw [run_more h1] at hr
        cases h3 : run strtod st' (q' ++ (bs.flatten ++ [0x20#8])) with
        | none => rw [h3] at hr; cases hr
        | some y =>
          obtain ⟨evs2, r2⟩ := y
          rw [h3] at hr
          cases hr
          rw [feedG_append]
          cases hf : feedG cb evs1 c with
          | none => rw [hf] at h2; rw [show yajlParse strtod cb _ _ = none from h2]; rfl
          | some y =>
            obtain ⟨c', b'⟩ := y
            rw [hf] at h2
            cases b' with
            | false => obtain ⟨h, e1, e2⟩ := h2; rw [e1]; exact ⟨h, rfl, e2⟩
            | true =>
              obtain ⟨⟨st'', x', c''⟩, e1, e2, e3, e4⟩ := h2
              rw [e1]
              dsimp only at e2 e3 e4 ⊢
              subst e2; subst e3
              rw [← List.append_assoc] at h3
              exact parseBlocks_ok bs e4 (fun b hb' => hb b (by simp [hb'])) h3

theorem holds_alloc (c : σ) : Holds (yajlAlloc c).lx [] := Or.inr ⟨rfl, rfl⟩

theorem blocks_ok : ∀ (n : Nat) (l : List Byte), l.length ≤ n → (blocks n l).flatten = l ∧ ∀ b ∈ blocks n l, b ≠ []
  | 0, l, h => by rw [List.length_eq_zero_iff.1 (Nat.le_zero.1 h)]; simp [blocks]
  | n + 1, l, h => by
    rw [blocks]
    split_ifs with hl
    · simp [hl]
    · have hp := List.length_pos_iff.2 hl
      obtain ⟨h1, h2⟩ := blocks_ok n (l.drop 16384) (by rw [List.length_drop]; omega)
      refine ⟨by rw [List.flatten_cons, h1, List.take_append_drop], ?_⟩
      intro b hb
      rcases List.mem_cons.1 hb with rfl | hb
      · rw [ne_eq, List.take_eq_nil_iff]; simp [hl]
      · exact h2 b hb

end WG.Yajl
