import Verif.Serve.CondSpec
import Verif.Serve.SearchProps

/-!
# The server: a request finds the records that meet its conditions (C78)
-/
namespace WG.Serve
open WG.Csv (Str Byte asc)
open Spec

theorem given_eq (k : String) (ps : Params) (i : Nat) : (collect k ps)[i]? = given k ps i := by
  induction ps generalizing i with
  | nil => rfl
  | cons p ps ih =>
    by_cases h : p.1 = asc k
    · cases i with
      | zero => simp [collect, given, h]
      | succ i => simpa [collect, given, h] using ih i
    · simpa [collect, given, h] using ih i

theorem digit_iff (c : Byte) : Attach.isDigit c = true ↔ Digit c := by simp [Attach.isDigit, Digit]

theorem digit_point : Attach.isDigit 46#8 = false := by decide

theorem isint_iff (s : Str) : isint s = true ↔ ∀ c ∈ s, Digit c := by
  simp only [isint, List.all_eq_true, digit_iff]

theorem isdblFrom_iff (s : Str) (c : Nat) (hc : c ≤ 1) : isdblFrom c s = true ↔ (∀ b ∈ s, Digit b ∨ b = 46#8) ∧ c + s.count 46#8 ≤ 1 := by
  induction s generalizing c with
  | nil => simp [isdblFrom, hc]
  | cons b s ih =>
    rw [isdblFrom]
    by_cases hd : Attach.isDigit b = true
    · have hb : b ≠ 46#8 := by rintro rfl; rw [digit_point] at hd; cases hd
      rw [if_pos hd, ih c hc, List.count_cons_of_ne hb]
      have := (digit_iff b).1 hd
      simp [this]
    · rw [if_neg hd]
      have hnd : ¬ Digit b := fun h => hd ((digit_iff b).2 h)
      by_cases hb : b = 46#8
      · subst hb
        rw [if_pos rfl, List.count_cons_self]
        by_cases hc1 : 1 < c + 1
        · rw [if_pos hc1]; constructor
          · intro h; cases h
          · rintro ⟨_, h⟩; omega
        · rw [if_neg hc1, ih (c + 1) (by omega)]
          constructor
          · rintro ⟨h1, h2⟩
            refine ⟨fun x hx => ?_, by omega⟩
            rcases List.mem_cons.1 hx with rfl | hx
            · exact Or.inr rfl
            · exact h1 x hx
          · rintro ⟨h1, h2⟩
            exact ⟨fun x hx => h1 x (by simp [hx]), by omega⟩
      · rw [if_neg hb]; constructor
        · intro h; cases h
        · rintro ⟨h, _⟩; rcases h b (by simp) with h | h
          · exact absurd h hnd
          · exact absurd h hb

theorem digits_digit (n : Nat) : ∀ c ∈ Json.digits n, Digit c := fun c hc => by
  have := (Csv.digits_text n).1.2 c hc
  exact (digit_iff c).1 (by simpa [Csv.Spec.Digit, Attach.isDigit] using this)

theorem count_digits {s : Str} (h : ∀ c ∈ s, Digit c) : s.count 46#8 = 0 := by
  rw [List.count_eq_zero]
  intro hm
  have := (digit_iff _).2 (h _ hm)
  rw [digit_point] at this; cases this

theorem isdbl_digits {s : Str} (h : ∀ c ∈ s, Digit c) : isdbl s = true :=
  (isdblFrom_iff s 0 (by omega)).2 ⟨fun b hb => Or.inl (h b hb), by rw [count_digits h]; omega⟩

theorem isdbl_decimal {s : Str} (h : Decimal s) : isdbl s = true ∧ isint s = false := by
  obtain ⟨a, b, rfl, ha, hb, _⟩ := h
  refine ⟨(isdblFrom_iff _ 0 (by omega)).2 ⟨fun x hx => ?_, ?_⟩, ?_⟩
  · rcases List.mem_append.1 hx with h | h
    · exact Or.inl (ha x h)
    · rcases List.mem_cons.1 h with rfl | h
      · exact Or.inr rfl
      · exact Or.inl (hb x h)
  · rw [List.count_append, List.count_cons_self, count_digits ha, count_digits hb]
  · rw [← Bool.not_eq_true, isint_iff]
    intro h
    have := (digit_iff _).2 (h 46#8 (by simp))
    rw [digit_point] at this; cases this

theorem isdbl_noNumber {s : Str} (h : NoNumber s) : isdbl s = false ∧ isint s = false := by
  have h1 : isdbl s = false := by
    rw [← Bool.not_eq_true, isdbl, isdblFrom_iff s 0 (by omega)]
    rintro ⟨h1, h2⟩
    rcases h with ⟨c, hc, hd, hp⟩ | h
    · rcases h1 c hc with h | h
      · exact hd h
      · exact hp h
    · omega
  refine ⟨h1, ?_⟩
  rw [← Bool.not_eq_true, isint_iff]
  intro hi
  rw [isdbl_digits hi] at h1; cases h1

theorem atoi_text {n : Nat} (h : n < 2 ^ 31) : atoi (Json.digits n) = n := by
  have := atoi_digits h (rest := []) (by intro c r e; cases e)
  rwa [List.append_nil] at this

theorem isint_digits (n : Nat) : isint (Json.digits n) = true := (isint_iff _).2 (digits_digit n)

theorem incomp_is {p : Option Str} {c : Query.Cond} (h : CompareIs p c) : encodeIncomp p = some c := by
  cases h <;> decide

theorem invalue_is {t v : Option Str} {x : PVal} (h : ValueIs t v x) : (encodeIntype t).bind (fun t => encodeInvalue v t) = some x := by
  have e1 : encodeIntype none = some .guess := rfl
  have e2 : encodeIntype (some (asc "null")) = some .null := by decide
  have e3 : encodeIntype (some (asc "int")) = some .int := by decide
  have e4 : encodeIntype (some (asc "record")) = some .record := by decide
  have e5 : encodeIntype (some (asc "double")) = some .double := by decide
  have e6 : encodeIntype (some (asc "str")) = some .str := by decide
  have e7 : encodeIntype (some (asc "char")) = some .char := by decide
  cases h with
  | null s => rw [e2]; rfl
  | int n hn => rw [e3]; simp [encodeInvalue, isint_digits, atoi_text hn]
  | guessInt n hn => rw [e1]; simp [encodeInvalue, isint_digits, atoi_text hn]
  | record n hn => rw [e4]; simp [encodeInvalue, isint_digits, atoi_text hn]
  | dbl s hs => rw [e5]; simp [encodeInvalue, (isdbl_decimal hs).1]
  | dblInt n => rw [e5]; simp [encodeInvalue, isdbl_digits (digits_digit n)]
  | guessDbl s hs => rw [e1]; simp [encodeInvalue, (isdbl_decimal hs).1, (isdbl_decimal hs).2]
  | str s => rw [e6]; rfl
  | guessStr s hs => rw [e1]; simp [encodeInvalue, (isdbl_noNumber hs).1, (isdbl_noNumber hs).2]
  | char c s => rw [e7]; rfl

theorem condArg_is {f : Str} {c t v : Option Str} {a : Query.Arg PVal} (h1 : FieldIs (some f) a.col) (h2 : CompareIs c a.cond) (h3 : ValueIs t v a.value) :
    condArg f c t v = some a := by
  obtain ⟨e, hn⟩ := h1
  cases e
  have h3 := invalue_is h3
  rw [condArg, if_pos ⟨isint_digits _, by rw [atoi_text hn]; omega⟩, incomp_is h2, Option.bind_some]
  cases ht : encodeIntype t with
  | none => rw [ht] at h3; cases h3
  | some t' =>
    rw [ht, Option.bind_some] at h3
    rw [Option.bind_some, h3, atoi_text hn]
    rfl

/-- The loop goes through the conditions one after the other. -/
theorem condArgs_is (cs ts vs : List Str) (args : List (Query.Arg PVal)) (i : Nat) (fs : List Str) (hl : fs.length = args.length)
    (h : ∀ j f a, fs[j]? = some f → args[j]? = some a → condArg f cs[i + j]? ts[i + j]? vs[i + j]? = some a) : condArgs cs ts vs i fs = some args := by
  induction fs generalizing i args with
  | nil =>
    cases args with
    | nil => rfl
    | cons a l => simp at hl
  | cons f fs ih =>
    cases args with
    | nil => simp at hl
    | cons a l =>
      have h0 := h 0 f a rfl rfl
      rw [Nat.add_zero] at h0
      rw [condArgs, h0, Option.bind_some, ih l (i + 1) (by simpa using hl)]
      · rfl
      · intro j f' a' h1 h2
        have := h (j + 1) f' a' (by simpa using h1) (by simpa using h2)
        rwa [show i + (j + 1) = i + 1 + j from by omega] at this

/-- C78 (reading): the conditions of a request become the arguments of the query, in their order. -/
theorem C78_read_partial (ps : Params) (args : List (Query.Arg PVal)) (h : Asks ps args) : queryArgs ps = some args := by
  obtain ⟨hn, h⟩ := h
  have hlen : (collect "field" ps).length = args.length := by
    rw [← given_eq] at hn
    have h1 : (collect "field" ps).length ≤ args.length := List.getElem?_eq_none_iff.1 hn
    cases hk : args.length with
    | zero => omega
    | succ k =>
      have hk' : k < args.length := by omega
      obtain ⟨⟨e, _⟩, _⟩ := h k args[k] (List.getElem?_eq_getElem hk')
      rw [← given_eq] at e
      have := (List.getElem?_eq_some_iff.1 e).1
      omega
  refine condArgs_is _ _ _ args 0 _ hlen ?_
  intro j f a h1 h2
  obtain ⟨a1, a2, a3⟩ := h j a h2
  rw [Nat.zero_add, given_eq, given_eq, given_eq]
  rw [given_eq] at h1
  rw [h1] at a1
  exact condArg_is a1 a2 a3

theorem incomp_wrong {s : Str} (h : s ∉ compareNames.map asc) : encodeIncomp (some s) = none := by
  simp only [compareNames, List.map_cons, List.map_nil, List.mem_cons, List.not_mem_nil, or_false, not_or] at h
  obtain ⟨h1, h2, h3, h4, h5, h6⟩ := h
  rw [encodeIncomp, if_neg h1, if_neg h2, if_neg h3, if_neg h4, if_neg h5, if_neg h6]

theorem intype_wrong {s : Str} (h : s ∉ typeNames.map asc) : encodeIntype (some s) = none := by
  simp only [typeNames, List.map_cons, List.map_nil, List.mem_cons, List.not_mem_nil, or_false, not_or] at h
  obtain ⟨h1, h2, h3, h4, h5, h6⟩ := h
  rw [encodeIntype, if_neg h1, if_neg h2, if_neg h3, if_neg h4, if_neg h5, if_neg h6]

theorem isint_wrong {s : Str} (h : ∃ b ∈ s, ¬ Digit b) : isint s = false := by
  obtain ⟨b, hb, hd⟩ := h
  rw [← Bool.not_eq_true, isint_iff]
  exact fun h => hd (h b hb)

theorem condArg_wrong {f : Str} {c t v : Option Str} (h : Wrong f c t v) : condArg f c t v = none := by
  have e3 : encodeIntype (some (asc "int")) = some .int := by decide
  have e4 : encodeIntype (some (asc "record")) = some .record := by decide
  have e5 : encodeIntype (some (asc "double")) = some .double := by decide
  unfold condArg
  cases h
  case field h => rw [if_neg (by rw [isint_wrong h]; simp)]
  case compare h => rw [incomp_wrong h]; split <;> rfl
  case type h => rw [intype_wrong h]; split <;> simp
  case value => split <;> simp [encodeInvalue]
  case int h => rw [e3]; split <;> simp [encodeInvalue, isint_wrong h]
  case record h => rw [e4]; split <;> simp [encodeInvalue, isint_wrong h]
  case double h => rw [e5]; split <;> simp [encodeInvalue, (isdbl_noNumber h).1]

theorem condArgs_wrong (cs ts vs : List Str) (i : Nat) (fs : List Str) (j : Nat) (f : Str) (hf : fs[j]? = some f) (h : condArg f cs[i + j]? ts[i + j]? vs[i + j]? = none) :
    condArgs cs ts vs i fs = none := by
  induction fs generalizing i j with
  | nil => simp at hf
  | cons g fs ih =>
    rw [condArgs]
    cases j with
    | zero =>
      simp only [List.getElem?_cons_zero, Option.some.injEq] at hf
      subst hf
      rw [Nat.add_zero] at h
      rw [h]; rfl
    | succ j =>
      rw [ih (i + 1) j (by simpa using hf) (by rwa [show i + 1 + j = i + (j + 1) from by omega])]
      cases condArg g cs[i]? ts[i]? vs[i]? <;> rfl

/-- C78 (refusal): a request with a condition that makes no sense is refused. -/
theorem C78_refused (ps : Params) (i : Nat) (f : Str) (hf : given "field" ps i = some f) (h : Wrong f (given "compare" ps i) (given "type" ps i) (given "value" ps i)) :
    queryArgs ps = none := by
  refine condArgs_wrong _ _ _ 0 _ i f (by rw [given_eq]; exact hf) ?_
  rw [Nat.zero_add, given_eq, given_eq, given_eq]
  exact condArg_wrong h

/-- C78 (kind): with a field and no record numbers the search is by conditions; record numbers and conditions together are refused, and so are parts of conditions without a field. -/
theorem C78_kind (ps : Params) :
    (searchKind ps = some .fields ↔ given "recids" ps 0 = none ∧ given "field" ps 0 ≠ none) ∧
    (searchKind ps = some .ids ↔ given "recids" ps 0 ≠ none ∧ given "field" ps 0 = none) ∧
    (searchKind ps = some .scan ↔ ∀ k ∈ ["recids", "field", "value", "compare", "type"], given k ps 0 = none) := by
  have hz : ∀ k, collect k ps = [] ↔ given k ps 0 = none := by
    intro k
    rw [← given_eq]
    cases collect k ps <;> simp
  unfold searchKind
  have a1 := hz "recids"
  have a2 := hz "field"
  have a3 := hz "value"
  have a4 := hz "compare"
  have a5 := hz "type"
  simp only [List.mem_cons, List.not_mem_nil, or_false, forall_eq_or_imp, forall_eq, ne_eq, ← a1, ← a2, ← a3, ← a4, ← a5]
  by_cases h1 : collect "recids" ps = [] <;> by_cases h2 : collect "field" ps = [] <;>
    by_cases h3 : collect "value" ps = [] <;> by_cases h4 : collect "compare" ps = [] <;> by_cases h5 : collect "type" ps = [] <;> simp [h1, h2, h3, h4, h5]

open WG.Query in
/-- C78: a search with conditions finds exactly the records that meet all of them, each once, and shows those from position `from` on, at most `count`. Partial: values as in `ValueIs`
(`C78_number_counterexample`, `C78_empty_counterexample`, `C78_negative_counterexample`, `C78_record_counterexample`); conditions of the form `> v` and `< v` together, as for C25; the
encoding of values is `enc` (see C52), and its results are values of the database (`P`). -/
theorem C78_partial {κ ι : Type} [DecidableEq κ] {db : DB κ} {P : κ → Prop} (hw : WF db P) (enc : PVal → κ) (ps : Params) (args : List (Arg PVal)) (h : Asks ps args) (h0 : args ≠ [])
    (hv : ∀ a ∈ args, P (enc a.value))
    (hgap : ∀ a ∈ args, ∀ b ∈ args, a.cond = .greater → b.cond = .lessThan → a.col = b.col → (∃ ix ∈ db.idx a.col, ix.ttree = true) → db.cmp (enc a.value) (enc b.value) ≠ .eq)
    (k : Nat) (hk : TTree.fuel db.recs.length ≤ k) :
    ∃ q rows, condQuery db enc k ps = some q ∧ Fetches db k q rows ∧ rows.Nodup ∧
      (∀ r, r ∈ rows ↔ r ∈ db.recs ∧ ∀ a ∈ args, Sat db r ⟨a.col, a.cond, enc a.value⟩) ∧
      ∀ (X : Recs.Ix ι) (d : Recs.Db ι) (f c : Nat) (frm cnt : Option Str), FromIs frm f → CountIs .search cnt c → 0 < c →
        searchFields X .search frm cnt (rows.map (BitVec.ofNat 64)) d = some ⟨d, page f c (rows.map (BitVec.ofNat 64)), 0⟩ := by
  have hq := C78_read_partial ps args h
  let al : List (Arg κ) := args.map fun a => ⟨a.col, a.cond, enc a.value⟩
  obtain ⟨q, rows, e1, e2, e3, e4⟩ := C25_query_partial hw none (some al) (by simp) (by simp [al, h0])
    (by
      rintro v (⟨l, a, e, ha, rfl⟩ | ⟨m, e, _⟩)
      · cases e
        obtain ⟨b, hb, rfl⟩ := List.mem_map.1 ha
        exact hv b hb
      · cases e)
    (by
      intro l e a ha b hb
      cases e
      obtain ⟨a', ha', rfl⟩ := List.mem_map.1 ha
      obtain ⟨b', hb', rfl⟩ := List.mem_map.1 hb
      exact hgap a' ha' b' hb')
    k hk
  refine ⟨q, rows, by rw [condQuery, hq]; exact e1, e2, e3, fun r => ?_, fun X d f c frm cnt hf hc h0 => C76_fields_partial X d _ hf hc h0⟩
  rw [e4]
  constructor
  · rintro ⟨h1, h2, _⟩
    exact ⟨h1, fun a ha => h2 al rfl _ (List.mem_map.2 ⟨a, ha, rfl⟩)⟩
  · rintro ⟨h1, h2⟩
    refine ⟨h1, fun l e a ha => ?_, fun m e => by cases e⟩
    cases e
    obtain ⟨b, hb, rfl⟩ := List.mem_map.1 ha
    exact h2 b hb

end WG.Serve
