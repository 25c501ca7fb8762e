import Verif.Serve.OutNested

/-!
# The server: what an answer in JSON with records inside of records says
-/
namespace WG.Serve.Spec
open WG.Csv (Str Byte asc bytes)
open WG.Json (J JArr fmtInt)
open WG.Yajl (Val Text Utf8Text)

variable {ρ : Type}

/-- The array that stands for a record, where records in the fields are arrays too, down to the given number of levels. -/
def NestedRow (strtod : Str → Option Word) (e : Env ρ) : Nat → ρ → J → Prop
  | 0, _, _ => False
  | n + 1, r, j => ∃ js, List.Forall₂ (fun v j => match v with
      | .record s => NestedRow strtod e n s j
      | v => Shown strtod e v j) (e.F r) js ∧ j = .arr (arrOf ((if e.showid then [.int (BitVec.ofInt 64 (e.id r))] else []) ++ js))

end WG.Serve.Spec

namespace WG.Serve
open WG.Csv (Str Byte asc bytes)
open WG.Json (J JArr fmtInt)
open WG.Yajl
open Spec

variable {ρ : Type} {strtod : Str → Option Word}

theorem nested_val (e : Env ρ) (hj : e.json = true) (hs : e.strenc = 2) : ∀ (n : Nat) (r : ρ) (j : J), NestedFits e n r → NestedRow strtod e n r j → Val strtod (nestedText e n r) j
  | 0, _, _, h, _ => absurd h (by unfold NestedFits; exact id)
  | n + 1, r, j, hf, hr => by
    rw [NestedFits] at hf
    rw [NestedRow] at hr
    obtain ⟨hid, hv⟩ := hf
    obtain ⟨js, hjs, rfl⟩ := hr
    have key : ∀ (vs : List (SV ρ)) (js : List J), (∀ v ∈ vs, v ∈ e.F r) → List.Forall₂ (fun v j => match v with
        | .record s => NestedRow strtod e n s j
        | v => Shown strtod e v j) vs js → List.Forall₂ (Val strtod) (vs.map (nestValue e (nestedText e n))) js := by
      intro vs js hm h
      induction h with
      | nil => exact .nil
      | @cons v j vs js h _ ih =>
        refine .cons ?_ (ih fun x hx => hm x (List.mem_cons_of_mem _ hx))
        have hx := hv v (hm v List.mem_cons_self)
        cases v with
        | record s => exact nested_val e hj hs n s j hx h
        | null => exact value_val e hj hs hx h
        | int v => exact value_val e hj hs hx h
        | double v => exact value_val e hj hs hx h
        | fixpoint v => exact value_val e hj hs hx h
        | str s l => exact value_val e hj hs hx h
        | uri s l => exact value_val e hj hs hx h
        | xml s l => exact value_val e hj hs hx h
        | char v => exact value_val e hj hs hx h
        | date v => exact value_val e hj hs hx h
        | time v => exact value_val e hj hs hx h
        | var v => exact value_val e hj hs hx h
        | blob s n => exact value_val e hj hs hx h
        | other => exact value_val e hj hs hx h
    have h2 := key (e.F r) js (fun _ h => h) hjs
    have e1 : nestedText e (n + 1) r = asc "[" ++ (asc ",").intercalate ((if e.showid then [fmtInt (e.id r)] else []) ++ (e.F r).map (nestValue e (nestedText e n))) ++ asc "]" := by
      rw [nestedText]
      congr 4
    rw [e1]
    have h3 : List.Forall₂ (Val strtod) ((if e.showid then [fmtInt (e.id r)] else []) ++ (e.F r).map (nestValue e (nestedText e n)))
        ((if e.showid then [.int (BitVec.ofInt 64 (e.id r))] else []) ++ js) := by
      cases hsi : e.showid with
      | false => exact h2
      | true => exact .cons (fmtInt_val _ (hid hsi)) h2
    have := array_val [] [] [] .nil .nil .nil _ _ h3
    simpa [asc] using this

/-- **C75.** The answer to a search with records inside of records (no cycles, at most 7 million bytes) is a JSON text that says what the records are, with arrays inside of arrays. -/
theorem C75_nested_partial (e : Env ρ) (n : Nat) (rs : List ρ) (js : List J) (hj : e.json = true) (hs : e.strenc = 2) (hd : e.depth < e.maxdepth) (he : ∀ n, e.realloc n = true)
    (hp : ∀ p, e.jsonp = some p → p.length ≤ 96) (hv : ∀ r ∈ rs, NestedFits e n r) (hl : (nestedSearchText e n rs).length ≤ 7000000) (h : List.Forall₂ (NestedRow strtod e n) rs js) :
    ∃ o t, searchAnswer e n rs = .ok o ∧ o.text = wrap e.jsonp t ∧ o.term = true ∧ Text strtod t (.arr (arrOf js)) := by
  obtain ⟨o, h4, h5, _, h7⟩ := C74_nested_partial e n rs he hp hj hd hv hl
  clear hl
  have h2 : List.Forall₂ (Val strtod) (rs.map (nestedText e n)) js := by
    clear h4 h5
    induction h with
    | nil => exact .nil
    | cons h _ ih => exact .cons (nested_val e hj hs n _ _ (hv _ (by simp)) h) (ih (fun r hr => hv r (by simp [hr])))
  have nl : Gap [0x0a#8] := Yajl.gap_nl .nil
  have h3 := array_val [0x0a#8] [0x0a#8] [0x0a#8] nl nl nl _ _ h2
  refine ⟨o, _, h4, ?_, h7, [], _, [], [], rfl, .nil, h3, .nil, Or.inl rfl⟩
  rw [h5]
  unfold nestedSearchText wrap
  cases e.jsonp <;> simp [asc]

/-- A case: the third record of `demoN` inside of the second one. -/
theorem demo_json_nested : ∃ o t, searchAnswer demoN 2 [1] = .ok o ∧ o.text = t ∧
    Text (fun _ => none) t (.arr (.cons (.arr (.cons (.int 1001#64) (.cons (.int 5#64) (.cons (.arr (.cons (.int 1002#64) (.cons (.arr .nil) .nil))) .nil)))) .nil)) := by
  have h2 : NestedFits demoN 1 2 := by
    rw [NestedFits]
    refine ⟨fun _ => by decide, fun v hv => ?_⟩
    have hv : v ∈ [SV.null] := hv
    simp only [List.mem_cons, List.not_mem_nil, or_false] at hv
    subst hv
    trivial
  have h1 : NestedFits demoN 2 1 := by
    rw [NestedFits]
    refine ⟨fun _ => by decide, fun v hv => ?_⟩
    have hv : v ∈ [SV.int 5#64, SV.record 2] := hv
    simp only [List.mem_cons, List.not_mem_nil, or_false] at hv
    rcases hv with rfl | rfl
    · trivial
    · exact h2
  have r2 : NestedRow (fun _ => none) demoN 1 2 (.arr (.cons (.int 1002#64) (.cons (.arr .nil) .nil))) := by
    rw [NestedRow]
    exact ⟨[.arr .nil], .cons .null .nil, rfl⟩
  have r1 : NestedRow (fun _ => none) demoN 2 1 (.arr (.cons (.int 1001#64) (.cons (.int 5#64) (.cons (.arr (.cons (.int 1002#64) (.cons (.arr .nil) .nil))) .nil)))) := by
    rw [NestedRow]
    exact ⟨[.int 5#64, _], .cons (.int (by decide) (by decide)) (.cons r2 .nil), rfl⟩
  obtain ⟨o, t, h3, h4, _, h5⟩ := C75_nested_partial (strtod := fun _ => none) demoN 2 [1] _ rfl rfl (by decide) (fun _ => rfl) (by intro p hp; cases hp)
    (by intro r hr; simp only [List.mem_cons, List.not_mem_nil, or_false] at hr; subst hr; exact h1) (by decide +kernel) (.cons r1 .nil)
  exact ⟨o, t, h3, h4, h5⟩

end WG.Serve
