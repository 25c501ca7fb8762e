import Verif.Serve.OutDemo

/-!
# The server: answers with records inside of records
-/
namespace WG.Serve.Spec
open WG.Csv (Str Byte asc bytes)
open WG.Json (fmtInt)

variable {ρ : Type}

/-- The text of a record, where records in the fields are shown as their texts, down to the given number of levels. -/
def nestedText (e : Env ρ) : Nat → ρ → Str
  | 0, _ => []
  | n + 1, r => asc "[" ++ (asc ",").intercalate ((if e.showid then [fmtInt (e.id r)] else []) ++ (e.F r).map fun v => match v with
      | .record s => nestedText e n s
      | v => valueText e v) ++ asc "]"

/-- There are at most this number of levels of records, and the values that are not records fit. -/
def NestedFits (e : Env ρ) : Nat → ρ → Prop
  | 0, _ => False
  | n + 1, r => (e.showid = true → (e.id r).natAbs < 2 ^ 63) ∧ ∀ v ∈ e.F r, match v with
      | .record s => NestedFits e n s
      | v => Fits e v

/-- The text of the answer. -/
def nestedSearchText (e : Env ρ) (n : Nat) (rs : List ρ) : Str :=
  let list := asc "[\n" ++ (asc ",\n").intercalate (rs.map (nestedText e n)) ++ asc "\n]"
  match e.jsonp with
  | none => list
  | some p => p ++ asc "(" ++ list ++ asc ");"

end WG.Serve.Spec

namespace WG.Serve
open WG.Csv (Str Byte asc bytes)
open WG.Json (fmtInt)
open Spec

variable {ρ : Type}

/-- The text is appended and there is room behind it, or the answer is very long. -/
def Goes (r : R) (o : Out) (t : Str) (b : Bool) (k : Nat) : Prop :=
  (∃ o', r = .ok o' ∧ o'.text = o.text ++ t ∧ Inv o' ∧ (b = true → o'.term = true) ∧ o'.text.length + k ≤ o'.size) ∨ 50000000 < 7 * (o.text.length + t.length) + 100

theorem Does.goes {r : R} {o : Out} {t : Str} {b : Bool} (h : Does r o t b) : Goes r o t b 0 :=
  h.imp (fun ⟨o', h1, h2, h3, h4⟩ => ⟨o', h1, h2, h3, h4, h3.2⟩) And.right

theorem Goes.bind {r : R} {f : Out → R} {o : Out} {t u : Str} {b b' : Bool} {k k' : Nat} (h : Goes r o t b k)
    (hf : ∀ o', Inv o' → (b = true → o'.term = true) → o'.text.length + k ≤ o'.size → Goes (f o') o' u b' k') : Goes (r.bind f) o (t ++ u) b' k' := by
  rcases h with ⟨o', h1, h2, h3, h4, h5⟩ | h
  · rw [h1]
    rcases hf o' h3 h4 h5 with ⟨o2, g1, g2, g3⟩ | g
    · exact Or.inl ⟨o2, g1, by rw [g2, h2, List.append_assoc], g3⟩
    · refine Or.inr ?_
      rw [h2] at g
      simp only [List.length_append] at g ⊢
      omega
  · refine Or.inr ?_
    simp only [List.length_append]
    omega

theorem Goes.skip {o : Out} (h : Inv o) : Goes (.ok o) o [] false 0 := (Does.skip h (fun e => by cases e)).goes

theorem guar_goes (e : Env ρ) (he : ∀ n, e.realloc n = true) (o : Out) (h : Inv o) : Goes (guarantee e 100 o) o [] false 100 := by
  rcases guar_spec e he 100 o h with ⟨o', h1, h2, _, h4, h5⟩ | ⟨_, h2⟩
  · exact Or.inl ⟨o', h1, by rw [h2, List.append_nil], h4, (fun e => by cases e), by rw [h2]; omega⟩
  · exact Or.inr (by rw [List.length_nil]; omega)

theorem putc_goes (c : Byte) (o : Out) (h : Inv o) (k : Nat) (hs : o.text.length + (k + 1) ≤ o.size) : Goes (putc c o) o [c] false k := by
  unfold putc
  rw [if_pos (by omega)]
  refine Or.inl ⟨_, rfl, rfl, ⟨h.1, ?_⟩, (fun e => by cases e), ?_⟩
  all_goals
    simp only [List.length_append, List.length_cons, List.length_nil]
    omega

/-- The text of a value when the records are shown by `f`. -/
def nestValue (e : Env ρ) (f : ρ → Str) : SV ρ → Str
  | .record s => f s
  | v => valueText e v

theorem nested_value (e : Env ρ) (he : ∀ n, e.realloc n = true) (hj : e.json = true) (hd : e.depth < e.maxdepth) (nest : ρ → Out → R) (f : ρ → Str) (v : SV ρ)
    (hv : match v with | .record s => ∀ o, Inv o → Goes (nest s o) o (f s) false 99 | v => Fits e v) (o : Out) (h : Inv o) :
    Goes (value e nest v o) o (nestValue e f v) false 0 := by
  cases v with
  | record s =>
    unfold value nestValue
    simp only
    rw [show f s = [] ++ f s from rfl]
    refine Goes.bind (guar_goes e he o h) (fun o1 h1 _ _ => ?_)
    rw [if_neg (by rw [hj]; intro hh; rcases hh with x | x; · cases x
                   · omega)]
    rcases hv o1 h1 with ⟨o2, g1, g2, g3, _, g5⟩ | g
    · rw [g1]
      simp only
      unfold puts
      rw [if_pos (by rw [List.length_nil]; omega)]
      exact Or.inl ⟨_, rfl, by show o2.text ++ [] = _; rw [List.append_nil, g2], ⟨g3.1, by show (o2.text ++ []).length ≤ o2.size; rw [List.append_nil]; exact g3.2⟩,
        (fun e => by cases e), by show (o2.text ++ []).length + 0 ≤ o2.size; rw [List.append_nil]; exact g3.2⟩
    · exact Or.inr g
  | null => exact (value_does e he nest _ hv o h).goes
  | int v => exact (value_does e he nest _ hv o h).goes
  | double v => exact (value_does e he nest _ hv o h).goes
  | fixpoint v => exact (value_does e he nest _ hv o h).goes
  | str s l => exact (value_does e he nest _ hv o h).goes
  | uri s l => exact (value_does e he nest _ hv o h).goes
  | xml s l => exact (value_does e he nest _ hv o h).goes
  | char v => exact (value_does e he nest _ hv o h).goes
  | date v => exact (value_does e he nest _ hv o h).goes
  | time v => exact (value_does e he nest _ hv o h).goes
  | var v => exact (value_does e he nest _ hv o h).goes
  | blob s n => exact (value_does e he nest _ hv o h).goes
  | other => exact (value_does e he nest _ hv o h).goes

theorem nested_fields (e : Env ρ) (nest : ρ → Out → R) (f : SV ρ → Str) (he : ∀ n, e.realloc n = true) : ∀ (vs : List (SV ρ)) (sep : Bool) (o : Out),
    (∀ v ∈ vs, ∀ o, Inv o → Goes (value e nest v o) o (f v) false 0) → Inv o →
    Goes (fields e nest vs sep o) o (match sep with | true => tailText (vs.map f) | false => (asc ",").intercalate (vs.map f)) false 0
  | [], sep, o, _, h => by
    rw [fields]
    cases sep <;> exact Goes.skip h
  | v :: vs, sep, o, hv, h => by
    rw [fields]
    have ih := fun o => nested_fields e nest f he vs true o (fun x hx => hv x (List.mem_cons_of_mem _ hx))
    have ht : (match sep with | true => tailText ((v :: vs).map f) | false => (asc ",").intercalate ((v :: vs).map f)) =
        [] ++ ((if sep then [44#8] else []) ++ (f v ++ tailText (vs.map f))) := by
      cases sep with
      | true => simp [tailText]
      | false =>
        simp only [List.map_cons, intercalate_cons]
        have : asc "," = [44#8] := by decide
        simp [tailText, this]
    rw [ht]
    refine Goes.bind (guar_goes e he o h) (fun o1 h1 _ h2 => ?_)
    refine Goes.bind (b := false) (k := 0) ?_ (fun o2 h3 _ _ => Goes.bind (hv v List.mem_cons_self o2 h3) (fun o3 h4 _ _ => ih o3 h4))
    cases sep with
    | true => exact putc_goes 44#8 o1 h1 0 (by omega)
    | false => exact Goes.skip h1

theorem nested_record (e : Env ρ) (he : ∀ n, e.realloc n = true) (hj : e.json = true) (hd : e.depth < e.maxdepth) : ∀ (n : Nat) (r : ρ), NestedFits e n r → ∀ o, Inv o →
    Goes (record e n r o) o (nestedText e n r) false 99
  | 0, _, h, _, _ => absurd h (by unfold NestedFits; exact id)
  | n + 1, r, hf, o, h => by
    rw [NestedFits] at hf
    obtain ⟨hid, hv⟩ := hf
    have e1 : nestedText e (n + 1) r = [] ++ ([91#8] ++ ((if e.showid then fmtInt (e.id r) else []) ++
        ((match e.showid with | true => tailText ((e.F r).map (nestValue e (nestedText e n))) | false => (asc ",").intercalate ((e.F r).map (nestValue e (nestedText e n)))) ++ ([] ++ [93#8])))) := by
      have a1 : asc "[" = [91#8] := by decide
      have a2 : asc "]" = [93#8] := by decide
      have a3 : asc "," = [44#8] := by decide
      have a4 : (fun v : SV ρ => match v with | .record s => nestedText e n s | v => valueText e v) = nestValue e (nestedText e n) := by
        funext v
        cases v <;> rfl
      rw [nestedText, a4]
      cases e.showid <;> simp [a1, a2, a3, intercalate_cons, tailText]
    rw [e1, record]
    refine Goes.bind (guar_goes e he o h) (fun o1 h1 _ h2 => ?_)
    rw [if_pos hj]
    refine Goes.bind (putc_goes 91#8 o1 h1 99 (by omega)) (fun o2 h3 _ h4 => ?_)
    refine Goes.bind (b := false) (k := 0) ?_ (fun o3 h5 _ _ => Goes.bind (nested_fields e (record e n) (nestValue e (nestedText e n)) he (e.F r) e.showid o3 (fun v hm o4 h6 => ?_) h5)
      (fun o4 h6 _ _ => ?_))
    · cases hs : e.showid with
      | false => exact Goes.skip h3
      | true =>
        have := fmtInt_length (e.id r) (hid hs)
        exact (snprintf_does 99 _ o2 h3 (by omega) (by omega)).weak.goes
    · have hx := hv v hm
      refine nested_value e he hj hd _ _ v ?_ o4 h6
      cases v with
      | record s => exact nested_record e he hj hd n s hx
      | null => exact hx
      | int v => exact hx
      | double v => exact hx
      | fixpoint v => exact hx
      | str s l => exact hx
      | uri s l => exact hx
      | xml s l => exact hx
      | char v => exact hx
      | date v => exact hx
      | time v => exact hx
      | var v => exact hx
      | blob s n => exact hx
      | other => exact hx
    · rw [if_pos hj]
      exact Goes.bind (guar_goes e he o4 h6) (fun o5 h7 _ h8 => putc_goes 93#8 o5 h7 99 (by omega))

theorem nested_rows (e : Env ρ) (he : ∀ n, e.realloc n = true) (hj : e.json = true) (hd : e.depth < e.maxdepth) (n : Nat) : ∀ (rs : List ρ) (first : Bool) (o : Out),
    (∀ r ∈ rs, NestedFits e n r) → Inv o →
    Goes (rows e n first rs o) o (match first with | true => (asc ",\n").intercalate (rs.map (nestedText e n)) | false => (rs.map (nestedText e n)).flatMap fun t => asc ",\n" ++ t) false 0
  | [], first, o, _, h => by
    rw [rows]
    cases first <;> exact Goes.skip h
  | r :: rs, first, o, hv, h => by
    rw [rows]
    have e1 : (match first with | true => (asc ",\n").intercalate ((r :: rs).map (nestedText e n)) | false => ((r :: rs).map (nestedText e n)).flatMap fun t => asc ",\n" ++ t) =
        ([] ++ ((if first then [] else asc ",\n") ++ (nestedText e n r ++ []))) ++ (rs.map (nestedText e n)).flatMap fun t => asc ",\n" ++ t := by
      cases first <;> simp [intercalate_cons]
    rw [e1]
    refine Goes.bind (b := false) (k := 0) ?_ (fun o1 h1 _ _ => nested_rows e he hj hd n rs false o1 (fun x hx => hv x (List.mem_cons_of_mem _ hx)) h1)
    unfold row
    refine Goes.bind (guar_goes e he o h) (fun o1 h1 _ h2 => ?_)
    refine Goes.bind (b := false) (k := 0) ?_ (fun o2 h3 _ _ => Goes.bind (nested_record e he hj hd n r (hv r List.mem_cons_self) o2 h3) (fun o3 h4 _ _ => ?_))
    · have l2 : (asc ",\n").length = 2 := by decide
      cases first with
      | true => exact Goes.skip h1
      | false =>
        simp only [hj]
        exact (snprintf_does 100 (asc ",\n") o1 h1 (by omega) (by omega)).weak.goes
    · rw [if_pos hj]
      exact Goes.skip h4

/-- **C74.** A request for JSON with records inside of records, whose values fit and where each record leads through at most `n` levels of records (so there are no cycles), when memory can be
had and the text is not longer than 7 million bytes: the answer is written inside of the buffer, it is the whole text, with a 0 at its end. -/
theorem C74_nested_partial (e : Env ρ) (n : Nat) (rs : List ρ) (he : ∀ n, e.realloc n = true) (hp : ∀ p, e.jsonp = some p → p.length ≤ 96) (hj : e.json = true) (hd : e.depth < e.maxdepth)
    (hv : ∀ r ∈ rs, NestedFits e n r) (hl : (nestedSearchText e n rs).length ≤ 7000000) :
    ∃ o, searchAnswer e n rs = .ok o ∧ o.text = nestedSearchText e n rs ∧ o.text.length ≤ o.size ∧ o.term = true := by
  have h0 : Inv ⟨1000, [], false⟩ := ⟨by decide, by decide⟩
  have hg : Goes (searchAnswer e n rs) ⟨1000, [], false⟩ (startText e true ++ ((asc ",\n").intercalate (rs.map (nestedText e n)) ++ endText e true)) true 0 := by
    unfold searchAnswer
    refine Goes.bind (dataStart_does e he hp true _ h0).goes (fun o1 h1 _ _ => ?_)
    exact Goes.bind (nested_rows e he hj hd n rs true o1 hv h1) (fun o2 h2 _ _ => (dataEnd_does e he true o2 h2 true (fun _ => Or.inl ⟨hj, Or.inl rfl⟩)).goes)
  have et : startText e true ++ ((asc ",\n").intercalate (rs.map (nestedText e n)) ++ endText e true) = nestedSearchText e n rs := by
    unfold startText endText nestedSearchText
    rw [hj]
    cases e.jsonp <;> simp
  rw [et] at hg
  rcases hg with ⟨o, h1, h2, h3, h4, _⟩ | h
  · exact ⟨o, h1, by simpa using h2, h3.2, h4 rfl⟩
  · exfalso
    simp at h
    omega

/-- Three records: the first one leads to the second one twice and to the third one, the second one to the third one. -/
def demoN : Env (Fin 3) := ⟨true, true, 100, 101, 2, none, fun r => match r with
  | 0 => [.record 1, .str (asc "a\"b") none, .record 1, .record 2]
  | 1 => [.int 5#64, .record 2]
  | 2 => [.null], fun r => 1000 + r.val, fun _ => asc "0.5", fun _ => true⟩

theorem demo_nested_fits : ∀ r ∈ [(0 : Fin 3), 2], NestedFits demoN 3 r := by
  have h2 : ∀ n, NestedFits demoN (n + 1) 2 := by
    intro n
    rw [NestedFits]
    refine ⟨fun _ => by decide, fun v hv => ?_⟩
    have hv : v ∈ [SV.null] := hv
    simp only [List.mem_cons, List.not_mem_nil, or_false] at hv
    subst hv
    trivial
  have h1 : NestedFits demoN 2 1 := by
    rw [NestedFits]
    refine ⟨fun _ => by decide, fun v hv => ?_⟩
    have hv : v ∈ [SV.int 5#64, SV.record 2] := hv
    simp only [List.mem_cons, List.not_mem_nil, or_false] at hv
    rcases hv with rfl | rfl
    · trivial
    · exact h2 0
  have h0 : NestedFits demoN 3 0 := by
    rw [NestedFits]
    refine ⟨fun _ => by decide, fun v hv => ?_⟩
    have hv : v ∈ [SV.record 1, SV.str (asc "a\"b") none, SV.record 1, SV.record 2] := hv
    simp only [List.mem_cons, List.not_mem_nil, or_false] at hv
    rcases hv with rfl | rfl | rfl | rfl
    · exact h1
    · unfold Fits; decide +kernel
    · exact h1
    · exact h2 1
  intro r hr
  simp only [List.mem_cons, List.not_mem_nil, or_false] at hr
  rcases hr with rfl | rfl
  · exact h0
  · exact h2 2

theorem demo_nested : ∃ o, searchAnswer demoN 3 [0, 2] = .ok o ∧ o.term = true ∧
    o.text = asc "[\n[1000,[1001,5,[1002,[]]],\"a\\\"b\",[1001,5,[1002,[]]],[1002,[]]],\n[1002,[]]\n]" := by
  have et : nestedSearchText demoN 3 [0, 2] = asc "[\n[1000,[1001,5,[1002,[]]],\"a\\\"b\",[1001,5,[1002,[]]],[1002,[]]],\n[1002,[]]\n]" := by decide +kernel
  obtain ⟨o, h1, h2, _, h4⟩ := C74_nested_partial demoN 3 [0, 2] (fun _ => rfl) (by intro p hp; cases hp) rfl (by decide) demo_nested_fits (by rw [et]; decide +kernel)
  exact ⟨o, h1, h4, h2.trans et⟩

/-- The result of sprint_record for a record in a field is not looked at (Server/dserve_util.c line 334): a record with a string too long for the buffer is refused, but inside of another
record the printing stops in the middle of it, the rest follows and the answer is given as if it were whole. -/
theorem C74_nested_counterexample (s : Str) (h : 17000000 ≤ s.length) :
    let e : Env Bool := ⟨true, false, 100, 101, 0, none, fun r => if r then [.str s none] else [.record true], fun r => if r then 1000 else 2000, fun _ => [], fun _ => true⟩
    (∃ o, searchAnswer e 2 [true] = .fail o) ∧ (∃ o, searchAnswer e 2 [false] = .ok o ∧ o.text = asc "[\n[[]\n]" ∧ o.term = true) := by
  intro e
  have hb : ∀ (n : Nat) (t : Str), t.length ≤ 800 → ∀ b, record e (n + 1) true ⟨1000, t, b⟩ = .fail ⟨1000, t ++ [91#8], false⟩ := by
    intro n t ht b
    have g1 : ∀ u : Str, u.length ≤ 900 → ∀ b, guarantee e 100 ⟨1000, u, b⟩ = .ok ⟨1000, u, b⟩ := by
      intro u hu b
      unfold guarantee
      rw [if_neg (by show ¬ (((100 : Nat) : Int) > ((1000 : Nat) : Int) - u.length); omega)]
    have g2 : ∀ u : Str, ∀ b, guarantee e (100 + 6 * (s.length + 0)) ⟨1000, u, b⟩ = .fail ⟨1000, u, b⟩ := by
      intro u b
      unfold guarantee
      rw [if_pos (by show ((100 + 6 * (s.length + 0) : Nat) : Int) > ((1000 : Nat) : Int) - u.length; omega)]
      simp only
      rw [if_pos (show 1000 * 2 < 100 + 6 * (s.length + 0) by omega), if_pos (show 100 + 6 * (s.length + 0) > 100000000 by omega)]
    have hl : (t ++ [91#8]).length ≤ 900 := by
      simp only [List.length_append, List.length_cons, List.length_nil]
      omega
    have hF : e.F true = [.str s none] := rfl
    have hs : e.showid = false := rfl
    have hj : e.json = true := rfl
    rw [record, g1 t (by omega), hF, hs, hj]
    simp only [R.bind, if_true]
    have hc : putc 91#8 ⟨1000, t, b⟩ = .ok ⟨1000, t ++ [91#8], false⟩ := by
      unfold putc
      rw [if_pos (by show t.length + 1 ≤ 1000; omega)]
    rw [hc]
    simp only [Bool.false_eq_true, if_false]
    rw [fields, g1 _ hl]
    simp only [R.bind, Bool.false_eq_true, if_false]
    have hv : value e (record e n) (.str s none) ⟨1000, t ++ [91#8], false⟩ = .fail ⟨1000, t ++ [91#8], false⟩ := by
      show (guarantee e (100 + 6 * (s.length + 0)) _).bind _ = _
      rw [g2]
      rfl
    rw [hv]
  have d1 : dataStart e true ⟨1000, [], false⟩ = .ok ⟨1000, [91#8, 10#8], true⟩ := rfl
  have g0 : guarantee e 100 ⟨1000, [91#8, 10#8], true⟩ = .ok ⟨1000, [91#8, 10#8], true⟩ := rfl
  have r0 : ∀ r, row e 2 true r ⟨1000, [91#8, 10#8], true⟩ = (record e 2 r ⟨1000, [91#8, 10#8], true⟩).bind fun o => .ok o := by
    intro r
    unfold row
    rw [g0]
    rfl
  have r1 : record e 2 false ⟨1000, [91#8, 10#8], true⟩ = .ok ⟨1000, [91#8, 10#8, 91#8, 91#8, 93#8], false⟩ := by
    have hF : e.F false = [.record true] := rfl
    have g1 : guarantee e 100 ⟨1000, [91#8, 10#8, 91#8], false⟩ = .ok ⟨1000, [91#8, 10#8, 91#8], false⟩ := rfl
    have hv : value e (record e 1) (.record true) ⟨1000, [91#8, 10#8, 91#8], false⟩ = .ok ⟨1000, [91#8, 10#8, 91#8, 91#8], true⟩ := by
      unfold value
      simp only
      rw [g1]
      simp only [R.bind]
      rw [if_neg (by show ¬ (true = false ∨ (100 : Int) ≥ 101); decide), hb 0 _ (by decide)]
      rfl
    have hc : (if e.json then putc 91#8 ⟨1000, [91#8, 10#8], true⟩ else .ok ⟨1000, [91#8, 10#8], true⟩) = .ok ⟨1000, [91#8, 10#8, 91#8], false⟩ := rfl
    have hs : e.showid = false := rfl
    rw [record, g0]
    simp only [R.bind]
    rw [hc]
    simp only [hs, Bool.false_eq_true, if_false]
    rw [hF, fields, g1]
    simp only [R.bind, Bool.false_eq_true, if_false]
    rw [hv]
    rfl
  unfold searchAnswer
  rw [d1]
  constructor
  · refine ⟨⟨1000, [91#8, 10#8] ++ [91#8], false⟩, ?_⟩
    simp only [R.bind]
    rw [rows, r0, hb 1 _ (by decide)]
    rfl
  · refine ⟨⟨1000, [91#8, 10#8, 91#8, 91#8, 93#8, 10#8, 93#8], true⟩, ?_, by decide, rfl⟩
    simp only [R.bind]
    rw [rows, r0, r1]
    rfl

end WG.Serve
