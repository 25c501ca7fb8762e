import Verif.Serve.OutSpec
import Verif.Calendar.Iso
import Mathlib.Tactic.Ring

/-!
# The server: the answer fits into the buffer
-/
namespace WG.Serve
open WG.Csv (Str Byte asc bytes)
open WG.Json (fmtInt)
open Spec

variable {ρ : Type}

/-- The buffer has at least the first size, and the pointer is not past the end. -/
def Inv (o : Out) : Prop := 1000 ≤ o.size ∧ o.text.length ≤ o.size

/-- The text is appended, or the answer is very long; `b`: there is a 0 at the end. -/
def Does (r : R) (o : Out) (t : Str) (b : Bool) : Prop :=
  (∃ o', r = .ok o' ∧ o'.text = o.text ++ t ∧ Inv o' ∧ (b = true → o'.term = true)) ∨
    ((∃ o', r = .fail o') ∧ 50000000 < 7 * (o.text.length + t.length) + 100)

theorem Does.bind {r : R} {f : Out → R} {o : Out} {t u : Str} {b b' : Bool} (h : Does r o t b)
    (hf : ∀ o', Inv o' → o'.text = o.text ++ t → (b = true → o'.term = true) → Does (f o') o' u b') : Does (r.bind f) o (t ++ u) b' := by
  rcases h with ⟨o', h1, h2, h3, h4⟩ | ⟨⟨o', h1⟩, h2⟩
  · rw [h1]
    rcases hf o' h3 h2 h4 with ⟨o2, g1, g2, g3, g4⟩ | ⟨⟨o2, g1⟩, g2⟩
    · exact Or.inl ⟨o2, g1, by rw [g2, h2, List.append_assoc], g3, g4⟩
    · refine Or.inr ⟨⟨o2, g1⟩, ?_⟩
      rw [h2] at g2
      simp only [List.length_append] at g2 ⊢
      omega
  · rw [h1]
    refine Or.inr ⟨⟨o', rfl⟩, ?_⟩
    simp only [List.length_append]
    omega

theorem Does.step {r : R} {f : Out → R} {o o2 : Out} {t u : Str} {b : Bool} (hr : r = .ok o2) (ht : o2.text = o.text ++ t) (h : Does (f o2) o2 u b) : Does (r.bind f) o (t ++ u) b := by
  rw [hr]
  show Does (f o2) o (t ++ u) b
  rcases h with ⟨o', h1, h2, h3, h4⟩ | ⟨h1, h2⟩
  · exact Or.inl ⟨o', h1, by rw [h2, ht, List.append_assoc], h3, h4⟩
  · refine Or.inr ⟨h1, ?_⟩
    rw [ht] at h2
    simp only [List.length_append] at h2 ⊢
    omega

theorem Does.weak {r : R} {o : Out} {t : Str} {b : Bool} (h : Does r o t b) : Does r o t false :=
  h.imp (fun ⟨o', h1, h2, h3, _⟩ => ⟨o', h1, h2, h3, fun e => by cases e⟩) id

theorem Does.skip {o : Out} (h : Inv o) {b : Bool} (hb : b = true → o.term = true) : Does (.ok o) o [] b :=
  Or.inl ⟨o, rfl, by simp, h, hb⟩

theorem guar_spec (e : Env ρ) (he : ∀ n, e.realloc n = true) (k : Nat) (o : Out) (h : Inv o) :
    (∃ o', guarantee e k o = .ok o' ∧ o'.text = o.text ∧ o'.term = o.term ∧ Inv o' ∧
      (o.text.length + k ≤ o'.size ∨ (o.text.length + 1000 ≤ o'.size ∧ 2 * o.text.length + k ≤ 2 * o'.size))) ∨
    ((∃ o', guarantee e k o = .fail o') ∧ 50000000 < o.text.length + k) := by
  obtain ⟨h1, h2⟩ := h
  unfold guarantee
  by_cases hk : (k : Int) > (o.size : Int) - o.text.length
  · rw [if_pos hk]
    simp only
    have hn : ∃ n, (if o.size * 2 < k then k else o.size * 2) = n ∧ k ≤ n ∧ o.size * 2 ≤ n ∧ (n = k ∨ n = o.size * 2) := by
      by_cases hh : o.size * 2 < k
      · exact ⟨k, if_pos hh, by omega, by omega, Or.inl rfl⟩
      · exact ⟨o.size * 2, if_neg hh, by omega, by omega, Or.inr rfl⟩
    obtain ⟨n, e1, e2, e3, e4⟩ := hn
    rw [e1]
    by_cases hm : n > 100000000
    · rw [if_pos hm]
      exact Or.inr ⟨⟨o, rfl⟩, by omega⟩
    · rw [if_neg hm, if_pos (he n)]
      exact Or.inl ⟨_, rfl, rfl, rfl, ⟨by show 1000 ≤ n; omega, by show o.text.length ≤ n; omega⟩, Or.inr ⟨by show _ ≤ n; omega, by show _ ≤ 2 * n; omega⟩⟩
  · rw [if_neg hk]
    exact Or.inl ⟨o, rfl, rfl, rfl, ⟨h1, h2⟩, Or.inl (by omega)⟩

/-- Space is made for `k` bytes, and then less is written. -/
theorem guar_then (e : Env ρ) (he : ∀ n, e.realloc n = true) (k : Nat) (o : Out) (h : Inv o) (f : Out → R) (t : Str) (b : Bool) (hk : k ≤ 100 + 6 * t.length)
    (hf : ∀ o', Inv o' → o'.text = o.text → o'.term = o.term →
      (o'.text.length + k ≤ o'.size ∨ (o'.text.length + 1000 ≤ o'.size ∧ 2 * o'.text.length + k ≤ 2 * o'.size)) → Does (f o') o' t b) :
    Does ((guarantee e k o).bind f) o t b := by
  rcases guar_spec e he k o h with ⟨o', h1, h2, h3, h4, h5⟩ | ⟨⟨o', h1⟩, h2⟩
  · rw [h1]
    have := hf o' h4 h2 h3 (by rw [h2]; exact h5)
    unfold Does at this ⊢
    rw [h2] at this
    exact this
  · rw [h1]
    exact Or.inr ⟨⟨o', rfl⟩, by omega⟩

theorem puts_does (t : Str) (o : Out) (h : Inv o) (hs : o.text.length + t.length + 1 ≤ o.size) : Does (puts t o) o t true := by
  unfold puts
  rw [if_pos hs]
  exact Or.inl ⟨_, rfl, rfl, ⟨h.1, by show (o.text ++ t).length ≤ o.size; rw [List.length_append]; omega⟩, fun _ => rfl⟩

theorem putc_does (c : Byte) (o : Out) (h : Inv o) (hs : o.text.length + 1 ≤ o.size) : Does (putc c o) o [c] false := by
  unfold putc
  rw [if_pos hs]
  exact Or.inl ⟨_, rfl, rfl, ⟨h.1, by show (o.text ++ [c]).length ≤ o.size; rw [List.length_append]; simpa using hs⟩, fun e => by cases e⟩

theorem snprintf_does (l : Nat) (t : Str) (o : Out) (h : Inv o) (hl : t.length ≤ l - 1) (hs : o.text.length + t.length + 1 ≤ o.size) : Does (snprintf l t o) o t true := by
  unfold snprintf
  rw [List.take_of_length_le hl]
  exact puts_does t o h hs

theorem short_does (e : Env ρ) (he : ∀ n, e.realloc n = true) (o : Out) (h : Inv o) (t : Str) (ht : t.length ≤ 99) :
    Does ((guarantee e 100 o).bind (snprintf 100 t)) o t true :=
  guar_then e he 100 o h _ t true (by omega) (fun o' h1 h2 h3 h4 => snprintf_does 100 t o' h1 (by omega) (by omega))

theorem long_does (e : Env ρ) (he : ∀ n, e.realloc n = true) (o : Out) (h : Inv o) (t : Str) (L : Nat) (h1 : t.length ≤ 3 * L + 49 ∨ t.length ≤ 999 ∧ t.length ≤ 6 * L + 99)
    (h2 : L ≤ t.length) : Does ((guarantee e (100 + 6 * L) o).bind (puts t)) o t true :=
  guar_then e he _ o h _ t true (by omega) (fun o' g1 g2 g3 g4 => puts_does t o' g1 (by omega))

theorem digits_length : ∀ (k n : Nat), n < 10 ^ (k + 1) → (Json.digits n).length ≤ k + 1
  | 0, n, h => by
    rw [Json.digits, if_pos (by simpa using h)]
    simp
  | k + 1, n, h => by
    rw [Json.digits]
    by_cases hn : n < 10
    · rw [if_pos hn]; simp
    · rw [if_neg hn, List.length_append]
      have := digits_length k (n / 10) (by rw [pow_succ] at h; omega)
      simp
      omega

theorem fmtInt_length (i : Int) (h : i.natAbs < 2 ^ 63) : (fmtInt i).length ≤ 20 := by
  have := digits_length 18 i.natAbs (by omega)
  unfold fmtInt
  split
  · rw [List.length_cons]; omega
  · omega

theorem int32_small (v : Word) : (Json.toInt32 v).natAbs < 2 ^ 63 := by
  unfold Json.toInt32
  have h1 := BitVec.toInt_lt (x := v.truncate 32)
  have h2 := BitVec.le_toInt (v.truncate 32)
  omega

theorem flatMap_len (f : Byte → Str) (k : Nat) (hf : ∀ c, 1 ≤ (f c).length ∧ (f c).length ≤ k) : ∀ s : Str, s.length ≤ (s.flatMap f).length ∧ (s.flatMap f).length ≤ k * s.length
  | [] => by simp
  | c :: s => by
    have := flatMap_len f k hf s
    have := hf c
    simp only [List.flatMap_cons, List.length_append, List.length_cons, Nat.mul_add]
    omega

theorem url_len (c : Byte) : 1 ≤ (urlByte c).length ∧ (urlByte c).length ≤ 3 := by
  unfold urlByte
  split <;> simp

theorem json_len : ∀ c : Byte, 1 ≤ (jsonByte c).length ∧ (jsonByte c).length ≤ 6 := by decide +kernel

theorem body_len (n : Nat) (s : Str) : s.length ≤ (strBody n s).length ∧ (strBody n s).length ≤ 6 * s.length := by
  unfold strBody
  split
  · omega
  split
  · have := flatMap_len (fun c => if c = 34#8 then [c, c] else [c]) 2 (fun c => by split <;> simp) s
    exact ⟨this.1, by have h2 := this.2; exact le_trans h2 (by omega)⟩
  split
  · have := flatMap_len urlByte 3 url_len s
    omega
  · exact flatMap_len jsonByte 6 json_len s

theorem quote_eq (s : Str) : quote s = quoted s := rfl

theorem quote_len (s : Str) : (quote s).length = s.length + 2 := by
  rw [quote_eq]
  unfold quoted
  simp

theorem value_does (e : Env ρ) (he : ∀ n, e.realloc n = true) (nest : ρ → Out → R) (v : SV ρ) (hv : Fits e v) (o : Out) (h : Inv o) :
    Does (value e nest v o) o (valueText e v) false := by
  cases v with
  | null =>
    unfold value valueText
    simp only
    by_cases hj : e.json = true
    · simp only [hj, if_true]
      exact (short_does e he o h _ (by decide)).weak
    · simp only [hj]
      exact guar_then e he 100 o h _ [] false (by omega) (fun o' h1 _ _ _ => Does.skip h1 (fun e => by cases e))
  | record r =>
    have hv : (e.id r).natAbs < 2 ^ 63 ∧ (e.json = false ∨ e.depth ≥ e.maxdepth) := hv
    unfold value valueText
    simp only [if_pos hv.2]
    have := fmtInt_length (e.id r) hv.1
    exact (short_does e he o h _ (by omega)).weak
  | int v =>
    have := fmtInt_length (Json.toInt32 v) (int32_small v)
    exact (short_does e he o h _ (by omega)).weak
  | double d => exact (short_does e he o h _ hv).weak
  | fixpoint d => exact (short_does e he o h _ hv).weak
  | str s l =>
    cases l with
    | none =>
      have hv : (strBody e.strenc s).length ≤ 3 * s.length + 47 ∨ (strBody e.strenc s).length ≤ 997 := hv
      unfold value strValue valueText
      simp only [Option.getD_none, List.length_nil, Nat.add_zero]
      have hb := body_len e.strenc s
      have ql := quote_len (strBody e.strenc s)
      have := long_does e he o h (quote (strBody e.strenc s)) s.length (by omega) (by omega)
      have eq : ∀ o : Out, ((puts (quoted (strBody e.strenc s)) o).bind fun o1 => R.ok o1) = puts (quote (strBody e.strenc s)) o := fun o => by
        rw [quote_eq]
        cases puts (quoted (strBody e.strenc s)) o <;> rfl
      simp only [eq]
      exact this.weak
    | some l =>
      have hv : strBody e.strenc s = s ∧ l.length ≤ 97 := hv
      unfold value strValue valueText
      simp only [Option.getD_some, hv.1]
      refine guar_then e he _ o h _ _ false (by rw [quote_len]; simp only [List.length_append]; omega) (fun o' h1 h2 h3 h4 => ?_)
      have ht : (64#8 :: l ++ [34#8]).take 99 = 64#8 :: l ++ [34#8] := List.take_of_length_le (by simp; omega)
      have hl : (64#8 :: l ++ [34#8]).length = l.length + 2 := by simp
      have hp : puts (quoted s) o' = .ok ⟨o'.size, o'.text ++ quoted s, true⟩ := by
        unfold puts
        rw [if_pos (by unfold quoted; simp only [List.length_append, List.length_cons, List.length_nil]; omega)]
      have ek : (quoted s).take (s.length + 1) = 34#8 :: s := by unfold quoted; simp
      rw [hp]
      simp only [R.bind, ht]
      rw [if_pos (by rw [hl]; omega), ek]
      refine Or.inl ⟨_, rfl, ?_, ⟨h1.1, ?_⟩, fun e => by cases e⟩
      · show o'.text ++ 34#8 :: s ++ (64#8 :: l ++ [34#8]) = o'.text ++ quote (s ++ asc "@" ++ l)
        rw [quote_eq]
        unfold quoted
        have : asc "@" = [64#8] := by decide
        simp [this]
      · show (o'.text ++ 34#8 :: s ++ (64#8 :: l ++ [34#8])).length ≤ o'.size
        simp only [List.length_append, List.length_cons, List.length_nil]
        omega
  | uri s p =>
    cases p with
    | none =>
      unfold value valueText
      simp only [Option.getD_none, List.length_nil, Nat.add_zero]
      have ql := quote_len s
      rw [← quote_eq]
      exact guar_then e he _ o h _ _ false (by omega) (fun o' h1 _ _ h4 => (snprintf_does _ _ o' h1 (by omega) (by omega)).weak)
    | some p =>
      unfold value valueText
      simp only [Option.getD_some]
      have ea : p ++ 58#8 :: s = p ++ asc ":" ++ s := by have : asc ":" = [58#8] := by decide
                                                         simp [this]
      have ql := quote_len (p ++ asc ":" ++ s)
      rw [ea, ← quote_eq]
      have l1 : (asc ":").length = 1 := by decide
      simp only [List.length_append, l1] at ql
      exact guar_then e he _ o h _ _ false (by omega) (fun o' h1 _ _ h4 => (snprintf_does _ _ o' h1 (by omega) (by omega)).weak)
  | xml s t =>
    unfold value valueText
    simp only
    have ea : t ++ 58#8 :: s = t ++ asc ":" ++ s := by have : asc ":" = [58#8] := by decide
                                                       simp [this]
    have ql := quote_len (t ++ asc ":" ++ s)
    rw [ea, ← quote_eq]
    have l1 : (asc ":").length = 1 := by decide
    simp only [List.length_append, l1] at ql
    exact guar_then e he _ o h _ _ false (by omega) (fun o' h1 _ _ h4 => (snprintf_does _ _ o' h1 (by omega) (by omega)).weak)
  | char c =>
    have hv : c ≠ 0#8 := hv
    unfold value valueText
    simp only [if_neg hv]
    exact (short_does e he o h (quote [c]) (by rw [quote_len]; simp)).weak
  | date d =>
    have hv : (Iso.strf d 0).isSome := hv
    obtain ⟨t, ht⟩ := Option.isSome_iff_exists.1 hv
    unfold value valueText
    simp only [ht]
    exact (short_does e he o h (quote _) (by rw [quote_len, List.length_take]; omega)).weak
  | time t =>
    have hv : (Iso.strf 1 t).isSome := hv
    obtain ⟨x, hx⟩ := Option.isSome_iff_exists.1 hv
    unfold value valueText
    simp only [hx]
    have := Iso.C51_fits 1 t x.1 x.2 hx
    exact (short_does e he o h (quote _) (by rw [quote_len, List.length_drop]; unfold bytes; rw [List.length_map]; omega)).weak
  | var v =>
    have hv : v.natAbs < 2 ^ 63 := hv
    have := fmtInt_length v hv
    have l1 : (asc "?").length = 1 := by decide
    exact (short_does e he o h (quote (asc "?" ++ fmtInt v)) (by rw [quote_len, List.length_append]; omega)).weak
  | blob s n =>
    have hv : s.length ≤ n := hv
    unfold value valueText
    simp only [List.take_of_length_le hv]
    have ql := quote_len (s.flatMap urlByte)
    have := flatMap_len urlByte 3 url_len s
    exact (long_does e he o h (quote (s.flatMap urlByte)) s.length (by omega) (by omega)).weak
  | other => exact (short_does e he o h _ (by decide)).weak

/-- The fields with a separator before each. -/
def tailText (l : List Str) : Str := l.flatMap fun t => 44#8 :: t

theorem intercalate_cons (sep x : Str) (xs : List Str) : sep.intercalate (x :: xs) = x ++ xs.flatMap (fun t => sep ++ t) := by
  induction xs generalizing x with
  | nil => simp [List.intercalate]
  | cons y ys ih =>
    have : sep.intercalate (x :: y :: ys) = x ++ sep ++ sep.intercalate (y :: ys) := by simp [List.intercalate, List.intersperse]
    rw [this, ih]
    simp

theorem fields_does (e : Env ρ) (he : ∀ n, e.realloc n = true) (nest : ρ → Out → R) : ∀ (vs : List (SV ρ)) (sep : Bool) (o : Out), (∀ v ∈ vs, Fits e v) → Inv o →
    Does (fields e nest vs sep o) o (match sep with | true => tailText (vs.map (valueText e)) | false => (asc ",").intercalate (vs.map (valueText e))) false
  | [], sep, o, _, h => by
    rw [fields]
    cases sep <;> exact Does.skip h (fun e => by cases e)
  | v :: vs, sep, o, hv, h => by
    rw [fields]
    have hv0 := hv v List.mem_cons_self
    have ih := fun o => fields_does e he nest vs true o (fun x hx => hv x (List.mem_cons_of_mem _ hx))
    have ht : (match sep with | true => tailText ((v :: vs).map (valueText e)) | false => (asc ",").intercalate ((v :: vs).map (valueText e))) =
        (if sep then [44#8] else []) ++ (valueText e v ++ tailText (vs.map (valueText e))) := by
      cases sep with
      | true => simp [tailText]
      | false =>
        simp only [List.map_cons, intercalate_cons]
        have : asc "," = [44#8] := by decide
        simp [tailText, this]
    rw [ht]
    refine guar_then e he 100 o h _ _ false (by omega) (fun o' h1 _ _ h4 => ?_)
    refine Does.bind (b := false) ?_ (fun o2 h2 _ _ => Does.bind (value_does e he nest v hv0 o2 h2) (fun o3 h3 _ _ => ih o3 h3))
    cases sep with
    | true => exact putc_does 44#8 o' h1 (by omega)
    | false => exact Does.skip h1 (fun e => by cases e)

theorem record_does (e : Env ρ) (he : ∀ n, e.realloc n = true) (n : Nat) (r : ρ) (hv : ∀ v ∈ e.F r, Fits e v) (hid : e.showid = true → (e.id r).natAbs < 2 ^ 63)
    (o : Out) (h : Inv o) : Does (record e (n + 1) r o) o (recordText e r) false := by
  rw [record]
  have e1 : recordText e r = (if e.json then [91#8] else []) ++ ((if e.showid then fmtInt (e.id r) else []) ++
      ((match e.showid with | true => tailText ((e.F r).map (valueText e)) | false => (asc ",").intercalate ((e.F r).map (valueText e))) ++ (if e.json then [93#8] else []))) := by
    have a1 : asc "[" = [91#8] := by decide
    have a2 : asc "]" = [93#8] := by decide
    have a3 : asc "," = [44#8] := by decide
    unfold recordText
    cases e.json <;> cases e.showid <;> simp [a1, a2, a3, intercalate_cons, tailText]
  rw [e1]
  refine guar_then e he 100 o h _ _ false (by omega) (fun o1 h1 _ _ h4 => ?_)
  have room : o1.text.length + 100 ≤ o1.size := by omega
  have hb : ∃ o2, (if e.json then putc 91#8 o1 else .ok o1) = .ok o2 ∧ o2.text = o1.text ++ (if e.json then [91#8] else []) ∧ Inv o2 ∧ o2.text.length + 99 ≤ o2.size := by
    cases e.json with
    | false => exact ⟨o1, rfl, by simp, h1, by omega⟩
    | true =>
      refine ⟨⟨o1.size, o1.text ++ [91#8], false⟩, by simp only [if_true]; unfold putc; rw [if_pos (by omega)], rfl, ⟨h1.1, ?_⟩, ?_⟩ <;>
        simp only [List.length_append, List.length_cons, List.length_nil] <;> omega
  obtain ⟨o2, b1, b2, b3, b4⟩ := hb
  refine Does.step b1 b2 ?_
  refine Does.bind (b := false) ?_ (fun o3 h3 _ _ => Does.bind (fields_does e he (record e n) (e.F r) e.showid o3 hv h3) (fun o4 h5 _ _ => ?_))
  · cases hs : e.showid with
    | false => exact Does.skip b3 (fun e => by cases e)
    | true =>
      have := fmtInt_length (e.id r) (hid hs)
      exact (snprintf_does 99 _ o2 b3 (by omega) (by omega)).weak
  · cases e.json with
    | false => exact Does.skip h5 (fun e => by cases e)
    | true => exact guar_then e he 100 o4 h5 _ _ false (by omega) (fun o5 h6 _ _ h7 => putc_does 93#8 o5 h6 (by omega))

theorem row_does (e : Env ρ) (he : ∀ n, e.realloc n = true) (n : Nat) (first : Bool) (r : ρ) (hv : ∀ v ∈ e.F r, Fits e v) (hid : e.showid = true → (e.id r).natAbs < 2 ^ 63)
    (o : Out) (h : Inv o) : Does (row e (n + 1) first r o) o ((if !first && e.json then asc ",\n" else []) ++ (recordText e r ++ (if e.json then [] else asc "\r\n"))) (!e.json) := by
  unfold row
  refine guar_then e he 100 o h _ _ _ (by omega) (fun o1 h1 _ _ h4 => ?_)
  refine Does.bind (b := false) ?_ (fun o2 h2 _ _ => Does.bind (record_does e he n r hv hid o2 h2) (fun o3 h3 _ _ => ?_))
  · cases (!first && e.json) with
    | false => exact Does.skip h1 (fun e => by cases e)
    | true =>
      have l2 : (asc ",\n").length = 2 := by decide
      exact (snprintf_does 100 (asc ",\n") o1 h1 (by omega) (by omega)).weak
  · cases e.json with
    | true => exact Does.skip h3 (fun e => by cases e)
    | false => exact short_does e he o3 h3 (asc "\r\n") (by decide)

/-- The text of the rows. -/
def rowsText (e : Env ρ) (first : Bool) (rs : List ρ) : Str :=
  if e.json then (match first with | true => (asc ",\n").intercalate (rs.map (recordText e)) | false => (rs.map (recordText e)).flatMap fun t => asc ",\n" ++ t)
  else rs.flatMap fun r => recordText e r ++ asc "\r\n"

theorem rows_does (e : Env ρ) (he : ∀ n, e.realloc n = true) (n : Nat) : ∀ (rs : List ρ) (first : Bool) (o : Out), (∀ r ∈ rs, ∀ v ∈ e.F r, Fits e v) →
    (∀ r ∈ rs, e.showid = true → (e.id r).natAbs < 2 ^ 63) → Inv o →
    ∀ b : Bool, (b = true → e.json = false ∧ (rs = [] → o.term = true)) → Does (rows e (n + 1) first rs o) o (rowsText e first rs) b
  | [], first, o, _, _, h, b, hb => by
    rw [rows]
    have : rowsText e first [] = [] := by
      unfold rowsText
      cases e.json <;> cases first <;> rfl
    rw [this]
    exact Does.skip h (fun hh => (hb hh).2 rfl)
  | r :: rs, first, o, hv, hid, h, b, hb => by
    rw [rows]
    have e1 : rowsText e first (r :: rs) = ((if !first && e.json then asc ",\n" else []) ++ (recordText e r ++ (if e.json then [] else asc "\r\n"))) ++ rowsText e false rs := by
      unfold rowsText
      cases e.json with
      | false => cases first <;> simp
      | true => cases first <;> simp [intercalate_cons]
    rw [e1]
    refine Does.bind (row_does e he n first r (hv r List.mem_cons_self) (hid r List.mem_cons_self) o h) (fun o1 h1 _ h2 => ?_)
    refine rows_does e he n rs false o1 (fun x hx => hv x (List.mem_cons_of_mem _ hx)) (fun x hx => hid x (List.mem_cons_of_mem _ hx)) h1 b (fun hh => ?_)
    have := (hb hh).1
    exact ⟨this, fun _ => h2 (by rw [this]; rfl)⟩

theorem printAdd_does (t : Str) (o : Out) (h : Inv o) (ht : t.length ≤ 99) (hs : o.text.length + 100 ≤ o.size) : Does (printAdd t o) o t true := by
  unfold printAdd
  rw [if_pos (by omega)]
  exact snprintf_does 100 t o h (by omega) (by omega)

/-- The text before the rows or the number. -/
def startText (e : Env ρ) (list : Bool) : Str :=
  if e.json then (match e.jsonp with | some p => p ++ asc "(" | none => []) ++ (if list then asc "[\n" else []) else []

/-- The text after the rows or the number. -/
def endText (e : Env ρ) (list : Bool) : Str :=
  if e.json then (if list then asc "\n]" else []) ++ (match e.jsonp with | some _ => asc ");" | none => []) else []

theorem dataStart_does (e : Env ρ) (he : ∀ n, e.realloc n = true) (hp : ∀ p, e.jsonp = some p → p.length ≤ 96) (list : Bool) (o : Out) (h : Inv o) :
    Does (dataStart e list o) o (startText e list) false := by
  unfold dataStart
  refine guar_then e he 100 o h _ _ _ (by omega) (fun o1 h1 _ _ h4 => ?_)
  have room : o1.text.length + 100 ≤ o1.size := by omega
  unfold startText
  cases hj : e.json with
  | false => exact Does.skip h1 (fun e => by cases e)
  | true =>
    cases hq : e.jsonp with
    | none =>
      cases list with
      | true => exact (printAdd_does (asc "[\n") o1 h1 (by decide) room).weak
      | false => exact Does.skip h1 (fun e => by cases e)
    | some p =>
      have := hp p hq
      have l1 : (asc "([\n").length = 3 := by decide
      have l2 : (asc "(").length = 1 := by decide
      cases list with
      | true =>
        have e1 : p ++ asc "(" ++ asc "[\n" = p ++ asc "([\n" := by rw [List.append_assoc]; rfl
        simp only [if_true, e1]
        exact (printAdd_does _ o1 h1 (by rw [List.length_append]; omega) room).weak
      | false =>
        simp only [Bool.false_eq_true, if_false, if_true, List.append_nil]
        exact (printAdd_does _ o1 h1 (by rw [List.length_append]; omega) room).weak

theorem dataEnd_does (e : Env ρ) (he : ∀ n, e.realloc n = true) (list : Bool) (o : Out) (h : Inv o) (b : Bool) (hb : b = true → e.json = true ∧ (list = true ∨ e.jsonp.isSome) ∨ o.term = true) :
    Does (dataEnd e list o) o (endText e list) b := by
  unfold dataEnd
  refine guar_then e he 100 o h _ _ _ (by omega) (fun o1 h1 _ h3 h4 => ?_)
  have room : o1.text.length + 100 ≤ o1.size := by omega
  have up : ∀ {r t}, Does r o1 t true → Does r o1 t b := fun h => by
    cases b with
    | true => exact h
    | false => exact h.weak
  unfold endText
  cases hj : e.json with
  | false =>
    refine Does.skip h1 (fun hh => ?_)
    rw [h3]
    rcases hb hh with x | x
    · rw [hj] at x; cases x.1
    · exact x
  | true =>
    cases hq : e.jsonp with
    | none =>
      cases list with
      | true =>
        have e1 : asc "\n]" ++ [] = asc "\n]" := List.append_nil _
        simp only [if_true, e1]
        exact up (printAdd_does (asc "\n]") o1 h1 (by decide) room)
      | false =>
        refine Does.skip h1 (fun hh => ?_)
        rw [h3]
        rcases hb hh with x | x
        · rw [hq] at x; rcases x.2 with y | y <;> cases y
        · exact x
    | some p =>
      cases list with
      | true => exact up (printAdd_does (asc "\n]);") o1 h1 (by decide) room)
      | false => exact up (printAdd_does (asc ");") o1 h1 (by decide) room)

/-- **C74.** A search whose request is not for nested records and whose values fit, when memory can be had: the answer is written inside of the buffer, it is the whole text, with a 0 at
its end unless a CSV answer has no rows; the request fails only when the text is longer than 7 million bytes. -/
theorem C74_search_partial (e : Env ρ) (n : Nat) (rs : List ρ) (he : ∀ n, e.realloc n = true) (hp : ∀ p, e.jsonp = some p → p.length ≤ 96)
    (hv : ∀ r ∈ rs, ∀ v ∈ e.F r, Fits e v) (hid : ∀ r ∈ rs, e.showid = true → (e.id r).natAbs < 2 ^ 63) :
    (∃ o, searchAnswer e (n + 1) rs = .ok o ∧ o.text = searchText e rs ∧ o.text.length ≤ o.size ∧ (e.json = true ∨ rs ≠ [] → o.term = true)) ∨
      ((∃ o, searchAnswer e (n + 1) rs = .fail o) ∧ 7000000 < (searchText e rs).length) := by
  have h0 : Inv ⟨1000, [], false⟩ := ⟨by decide, by decide⟩
  have hd : Does (searchAnswer e (n + 1) rs) ⟨1000, [], false⟩ (startText e true ++ (rowsText e true rs ++ endText e true)) (e.json || !rs.isEmpty) := by
    unfold searchAnswer
    refine Does.bind (dataStart_does e he hp true _ h0) (fun o1 h1 _ _ => ?_)
    refine Does.bind (rows_does e he n rs true o1 hv hid h1 (!e.json && !rs.isEmpty) (fun hh => ?_)) (fun o2 h2 _ h3 => ?_)
    · simp at hh
      exact ⟨hh.1, fun x => absurd x hh.2⟩
    · refine dataEnd_does e he true o2 h2 _ (fun hh => ?_)
      cases hj : e.json with
      | true => exact Or.inl ⟨rfl, Or.inl rfl⟩
      | false =>
        rw [hj] at hh h3
        exact Or.inr (h3 hh)
  have et : startText e true ++ (rowsText e true rs ++ endText e true) = searchText e rs := by
    unfold startText rowsText endText searchText
    cases e.json with
    | false => simp
    | true => cases e.jsonp <;> simp
  rw [et] at hd
  rcases hd with ⟨o, h1, h2, h3, h4⟩ | ⟨h1, h2⟩
  · refine Or.inl ⟨o, h1, by simpa using h2, h3.2, fun hh => h4 ?_⟩
    rcases hh with x | x
    · rw [x]; rfl
    · cases rs with
      | nil => exact absurd rfl x
      | cons _ _ => simp
  · exact Or.inr ⟨h1, by simp at h2; omega⟩

/-- **C74.** The same for an answer that is a number. -/
theorem C74_count (e : Env ρ) (k : Nat) (he : ∀ n, e.realloc n = true) (hp : ∀ p, e.jsonp = some p → p.length ≤ 96) (hk : k < 2 ^ 64) :
    ∃ o, countAnswer e k = .ok o ∧ o.text = countText e k ∧ o.text.length ≤ o.size ∧ o.term = true := by
  have h0 : Inv ⟨1000, [], false⟩ := ⟨by decide, by decide⟩
  have hl := digits_length 19 k (by omega)
  have hd : Does (countAnswer e k) ⟨1000, [], false⟩ (startText e false ++ (Json.digits k ++ endText e false)) true := by
    unfold countAnswer
    refine Does.bind (dataStart_does e he hp false _ h0) (fun o1 h1 _ _ => ?_)
    refine guar_then e he 100 o1 h1 _ _ _ (by omega) (fun o2 h2 _ _ h4 => ?_)
    refine Does.bind (snprintf_does 100 (Json.digits k) o2 h2 (by omega) (by omega)) (fun o3 h3 _ h5 => ?_)
    exact dataEnd_does e he false o3 h3 _ (fun _ => Or.inr (h5 rfl))
  have et : startText e false ++ (Json.digits k ++ endText e false) = countText e k := by
    unfold startText endText countText
    cases e.json with
    | false => simp
    | true => cases e.jsonp <;> simp
  rw [et] at hd
  rcases hd with ⟨o, h1, h2, h3, h4⟩ | ⟨h1, h2⟩
  · exact ⟨o, h1, by simpa using h2, h3.2, h4 rfl⟩
  · exfalso
    have : (countText e k).length ≤ 120 := by
      have l1 : (asc "(").length = 1 := by decide
      have l2 : (asc ");").length = 2 := by decide
      unfold countText
      split
      · rename_i p _ hq
        have := hp p hq
        simp only [List.length_append]
        omega
      · omega
    simp at h2
    omega

end WG.Serve
