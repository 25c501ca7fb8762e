import Verif.Serve.UrlProps

/-!
# The server: reading a query, examples
-/
namespace WG.Serve
open WG.Csv (Str Byte asc)
open Spec

/-- A query with codes; `+` stands for itself. -/
example : ∃ m, parseQuery (asc "op=search&value=a%26b%3D%41+&x=" ++ [0#8]) 31 = some (m, none) := ⟨_, rfl⟩

example : (parseQuery (asc "op=search&value=a%26b%3D%41+" ++ [0#8]) 28).map (fun r => r.2.map fun l => l.map fun x => (cstr r.1 x.1, cstr r.1 x.2)) =
    some (some [(some (asc "op"), some (asc "search")), (some (asc "value"), some (asc "a&b=A+"))]) := by decide +kernel

/-- The hypotheses of C73_partial hold of a query. -/
example : ∃ m l, parseQuery (asc "a=1&b=%3Dx" ++ 0#8 :: []) 10 = some (m, some l) ∧
    List.Forall₂ (fun x r => (∃ d v, Dec Hex r.1 d ∧ Cut d v ∧ cstr m x.1 = some v) ∧ (∃ d v, Dec Hex r.2 d ∧ Cut d v ∧ cstr m x.2 = some v)) l
      [(asc "a", asc "1"), (asc "b", asc "%3Dx")] :=
  C73_partial (asc "a=1&b=%3Dx") [] (by decide) _ (.cons (asc "a") (asc "1") (asc "b=%3Dx") _ (by decide) (by decide) (.last (asc "b") (asc "%3Dx") (by decide) (by decide) (by decide)))
    (by decide) (by
      have short : ∀ s : Str, s.length ≤ 2 → NoLower s := fun s hs u a b x y w e => by
        have := congrArg List.length e
        simp at this
        omega
      intro r hr
      simp only [List.mem_cons, List.not_mem_nil, or_false] at hr
      rcases hr with rfl | rfl
      · exact ⟨short _ (by decide), short _ (by decide)⟩
      · refine ⟨short _ (by decide), ?_⟩
        intro u a b x y w e _ _
        cases u with
        | nil =>
          have e : asc "%3Dx" = 37#8 :: a :: b :: w := e
          have h1 : a = 51#8 := by have := congrArg (fun l => l[1]?) e; simpa [asc] using this.symm
          have h2 : b = 68#8 := by have := congrArg (fun l => l[2]?) e; simpa [asc] using this.symm
          rw [h1, h2]; decide
        | cons c u =>
          have := congrArg List.length e
          have h4 : (asc "%3Dx").length = 4 := by decide
          simp only [List.length_append, List.length_cons] at this
          have hu : u = [] := by
            cases u with
            | nil => rfl
            | cons => simp only [List.length_cons] at this; omega
          subst hu
          have h1 := congrArg (fun l => l[1]?) e
          revert h1
          show some 51#8 = some 37#8 → _
          intro h1
          exact absurd h1 (by decide))

/-- The hypotheses of C73_roundtrip hold: `k = a&b`. -/
example : ∃ m l, parseQuery (asc "k=a%26b" ++ 0#8 :: []) 7 = some (m, some l) ∧
    List.Forall₂ (fun x p => cstr m x.1 = some p.1 ∧ cstr m x.2 = some p.2) l [(asc "k", asc "a&b")] :=
  C73_roundtrip _ (asc "k=a%26b") []
    (.last (asc "k") (asc "a&b") (asc "k") (asc "a%26b") (.plain _ _ _ (by decide) (by decide) (by decide) .nil)
      (.plain _ _ _ (by decide) (by decide) (by decide)
        (.pct 38#8 50#8 54#8 2#8 6#8 _ _ (.digit 2 (by decide)) (.digit 6 (by decide)) (by decide) (by decide) (by decide)
          (.plain _ _ _ (by decide) (by decide) (by decide) .nil))) (by decide))
    (by decide) (by decide)

end WG.Serve
