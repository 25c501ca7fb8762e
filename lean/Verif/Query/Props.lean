import Verif.Query.Find
import Verif.TTree.Props
/-!
# Properties of queries (C25, C26, C27)

`Verif/Query/Spec.lean` has the notions used in the statements: `Wanted` (the rows a query asks for), `Fetches`, `Finds`, `WF` (databases).
-/
namespace WG.Query
open WG.TTree
variable {κ : Type} [DecidableEq κ]

/-- C25: a query that is not refused returns exactly the records that it asks for, each once, whichever index is used or none. What is
missing from the full property is the case of two conditions `col > v` and `col < w` with equal values `v` and `w` on a column with a
T-tree index: there the code is wrong, see `C25_gap_counterexample`. Also not covered are conditions with a value that is no encoded
value (`WG_ILLEGAL`, the result of a failed encoding); see `C25_illegal_counterexample`. -/
theorem C25_query_partial {db : DB κ} {P : κ → Prop} (hw : WF db P) (mr : Option (List κ)) (al : Option (List (Arg κ))) (hm : mr ≠ some []) (ha : al ≠ some [])
    (hv : ∀ v, QueryValue db mr al v → P v)
    (hgap : ∀ l, al = some l → ∀ a ∈ l, ∀ b ∈ l, a.cond = .greater → b.cond = .lessThan → a.col = b.col → (∃ ix ∈ db.idx a.col, ix.ttree = true) → db.cmp a.value b.value ≠ .eq)
    (k : Nat) (hk : fuel db.recs.length ≤ k) :
    ∃ q rows, makeQuery db k mr al 0 = some q ∧ Fetches db k q rows ∧ rows.Nodup ∧ ∀ r, r ∈ rows ↔ Wanted db mr al r := by
  have hpp : prepareParams db mr al = some (al.getD [] ++ matchArgs db (mr.getD []) 0) := by
    unfold prepareParams
    rw [if_neg, if_neg]
    · cases al with
      | none => simp
      | some l => cases l <;> simp_all
    · cases mr with
      | none => simp
      | some l => cases l <;> simp_all
  have hva : ∀ a ∈ al.getD [] ++ matchArgs db (mr.getD []) 0, P a.value := by
    intro a h
    rcases List.mem_append.1 h with h | h
    · cases al with
      | none => simp at h
      | some l => exact hv _ (.inl ⟨l, a, rfl, h, rfl⟩)
    · obtain ⟨j, v, h1, h2, rfl⟩ := mem_matchArgs.1 h
      cases mr with
      | none => simp at h1
      | some m => exact hv _ (.inr ⟨m, rfl, List.mem_of_getElem? h1, h2⟩)
  have hng : NoGap db (al.getD [] ++ matchArgs db (mr.getD []) 0) := by
    have hnm : ∀ a ∈ matchArgs db (mr.getD []) 0, a.cond = .equal := by
      intro a h
      obtain ⟨_, _, _, _, rfl⟩ := mem_matchArgs.1 h
      rfl
    intro a h1 b h2 c1 c2
    rcases List.mem_append.1 h1 with h1 | h1
    · rcases List.mem_append.1 h2 with h2 | h2
      · cases al with
        | none => simp at h1
        | some l => exact hgap l rfl a h1 b h2 c1 c2
      · rw [hnm b h2] at c2; cases c2
    · rw [hnm a h1] at c1; cases c1
  obtain ⟨q, early, rows, h1, h2, h3, h4, h5, h6, h7⟩ := plain_res hw hpp hva hng hk
  have hrows : ∀ r, r ∈ rows ↔ Wanted db mr al r := fun r => by rw [h7, wanted_iff hw hv]
  cases early with
  | true => exact ⟨q, rows, by simp [makeQuery, h1], h2, h3, hrows⟩
  | false =>
    obtain ⟨q', pages', i', e, hf⟩ := prefetch_res (limit := 0) rows k h2 h5 (pages := []) (i := pageSize) (done := []) ⟨by simp, Nat.le_refl _, by simp⟩ (by simp)
    rw [if_pos rfl, List.nil_append] at e hf
    rw [List.length_nil] at e
    refine ⟨_, rows, by simp only [makeQuery, h1, e]; rfl, ?_, h3, hrows⟩
    exact fetches_pages rows rfl hf.size (by simp [pageSize]) hf.rows h2.nz

/-- C25: wrong parameters are refused. -/
theorem C25_refused (db : DB κ) (mr : Option (List κ)) (al : Option (List (Arg κ))) (h : mr = some [] ∨ al = some []) (k limit : Nat) : makeQuery db k mr al limit = none := by
  have : prepareParams db mr al = none := by
    unfold prepareParams
    rcases h with rfl | rfl
    · simp
    · simp
  simp [makeQuery, buildPlain, this]

/-- C26: `rows` are the rows that the query finds when it is made (those that it would deliver without prefetching). Later calls of
`wg_fetch` return these rows in this order, whatever happens to the database (`db'`), and with a limit its first rows only; the number of
rows is in `res_count`. What is missing from the full property: if the conditions contradict each other (`early`), no row is found and
`res_count` is not assigned, see `C26_count_counterexample`. The other hypotheses are those of `C25_query_partial`, except that all
conditions are given as one list. -/
theorem C26_prefetch_partial {db : DB κ} {P : κ → Prop} (hw : WF db P) (al : List (Arg κ)) (ha : al ≠ []) (hv : ∀ a ∈ al, P a.value)
    (hgap : ∀ a ∈ al, ∀ b ∈ al, a.cond = .greater → b.cond = .lessThan → a.col = b.col → (∃ ix ∈ db.idx a.col, ix.ttree = true) → db.cmp a.value b.value ≠ .eq)
    (limit k : Nat) (hk : fuel db.recs.length ≤ k) :
    ∃ q0 early q rows, buildPlain db k none (some al) = some (q0, early) ∧ Fetches db k q0 rows ∧ makeQuery db k none (some al) limit = some q ∧
      (∀ db' k', Fetches db' k' q (if limit = 0 then rows else rows.take limit)) ∧
      (early = false → q.resCount = some (if limit = 0 then rows else rows.take limit).length) ∧ (early = true → rows = []) := by
  have hpp : prepareParams db none (some al) = some al := by
    unfold prepareParams
    rw [if_neg, if_neg]
    · simp [matchArgs]
    · cases al <;> simp_all
    · simp
  obtain ⟨q, early, rows, h1, h2, h3, h4, h5, h6, h7⟩ := plain_res hw hpp hv hgap hk
  cases early with
  | true =>
    have hr := h6 rfl
    subst hr
    refine ⟨q, true, q, [], h1, h2, by simp [makeQuery, h1], ?_, by simp, fun _ => rfl⟩
    intro db' k'
    have e : (if limit = 0 then ([] : List Nat) else List.take limit []) = [] := by simp
    rw [e]
    refine .done ?_
    unfold buildPlain at h1
    rw [hpp] at h1
    simp only [] at h1
    split at h1
    · split at h1
      · simp only [Option.some.injEq, Prod.mk.injEq, and_true] at h1
        subst h1
        cases k' <;> simp [fetch, ttreeFetch]
      · split at h1 <;> simp at h1
    · simp at h1
  | false =>
    obtain ⟨q', pages', i', e, hf⟩ := prefetch_res (limit := limit) rows k h2 h5 (pages := []) (i := pageSize) (done := []) ⟨by simp, Nat.le_refl _, by simp⟩ (by simp; omega)
    simp only [List.nil_append, List.length_nil] at e hf
    refine ⟨q, false, _, rows, h1, h2, by simp only [makeQuery, h1, e]; rfl, fun db' k' => ?_, fun _ => rfl, by simp⟩
    refine fetches_pages _ rfl hf.size (by simp [pageSize]) hf.rows ?_
    intro h
    split_ifs at h
    · exact h2.nz h
    · exact h2.nz (List.mem_of_mem_take h)

/-- C27: repeated calls of `wg_find_record` return every record whose column satisfies the condition exactly once and then NULL, with or
without an index. -/
theorem C27_find_record {db : DB κ} {P : κ → Prop} (hw : WF db P) (col : Nat) (c : Cond) (hc : c ≠ .other) (v : κ) (hv : P v) (k : Nat) (hk : fuel db.recs.length ≤ k) :
    ∃ rows, Finds db k col c v 0 rows ∧ rows.Nodup ∧ ∀ r, r ∈ rows ↔ r ∈ db.recs ∧ Sat db r ⟨col, c, v⟩ :=
  findRecord_res hw hc hv hk

/-! ## A concrete database -/

/-- An index built by inserting the rows of a list (its last element first), with nodes at 100, 101, ... -/
def buildIdx (E : Env Int) : List Nat → St Int
  | [] => create E (fun _ => exNd) 100
  | r :: l => (addRow E (fuel l.length) (buildIdx E l) (some (101 + l.length)) r).1

theorem buildIdx_hist {E : Env Int} {P : Int → Prop} (O : Ord E P) (l : List Nat) (h : ∀ r ∈ l, P (E.key r)) :
    Hist E P (buildIdx E l) l ∧ ∀ i, Linked (buildIdx E l) i → i ≤ 100 + l.length := by
  induction l with
  | nil =>
    refine ⟨.create _ 100 O (by decide), ?_⟩
    intro i hi
    induction hi with
    | root _ => simp [buildIdx, create]
    | left a b c => simp [buildIdx, create, exNd] at b; split at b <;> simp at b
    | right a b c => simp [buildIdx, create, exNd] at b; split at b <;> simp at b
  | cons r l ih =>
    obtain ⟨h1, h2⟩ := ih (fun x hx => h x (by simp [hx]))
    have hr := h r (by simp)
    have hf : ¬ Linked (buildIdx E l) (101 + l.length) := fun h => by have := h2 _ h; omega
    refine ⟨.add _ _ _ h1 hr (by omega) hf (Nat.le_refl _), fun i hi => ?_⟩
    rcases (((C22_nodes h1 r _ hr (Nat.le_refl _)).1 _ (by omega) hf i).2 hi) with h | h
    · have := h2 _ h
      simp only [List.length_cons]; omega
    · simp only [List.length_cons]; omega

/-- Fields of record `r`: the value of column 0 from a list, column 1 is 1, 2 or 3. -/
def exFld (vals : List Int) (r c : Nat) : Int := if c = 0 then vals.getD (r - 1) 7 else (r % 3 : Nat) + 1

/-- Records 1, 2, ... with two columns, the values of column 0 from a list. The integer 0 is the illegal value, 999 a variable. There are
two indexes on column 0: one for records with the value 2 in column 1, and one for all records. -/
def exDB (vals : List Int) : DB Int :=
  let recs := (List.range vals.length).map (· + 1)
  let E : Env Int := { key := fun r => exFld vals r 0, cmp := compare, ill := 0 }
  { recs := recs, len := fun _ => 2, fld := exFld vals, cmp := compare, isVar := fun v => v == 999, ill := 0, null := -1
    idx := fun c => if c = 0 then [⟨true, buildIdx E (recs.filter (fun r => exFld vals r 1 == 2)), some [999, 2]⟩, ⟨true, buildIdx E recs, none⟩] else [] }

theorem exDB_wf (vals : List Int) (h : ∀ v ∈ vals, v ≠ 0) : WF (exDB vals) (fun x => x ≠ 0) := by
  have hf : ∀ r c, exFld vals r c ≠ 0 := by
    intro r c
    unfold exFld
    split_ifs
    · rw [List.getD_eq_getElem?_getD]
      cases hg : vals[r - 1]? with
      | none => simp
      | some v => exact h v (List.mem_of_getElem? hg)
    · omega
  have O : ∀ c, Ord ((exDB vals).env c) (fun x => x ≠ 0) := fun c => ⟨exE_ord.swap, exE_ord.trans, exE_ord.ill⟩
  have hr0 : 0 ∉ (exDB vals).recs := by simp [exDB]
  have hnd : (exDB vals).recs.Nodup := by
    refine List.Nodup.map ?_ List.nodup_range
    intro a b hab
    simpa using hab
  refine ⟨O, hnd, hr0, fun r _ c _ => hf r c, ?_, ?_⟩
  · intro c ix hix m hm v hv hvar
    simp only [exDB] at hix
    split_ifs at hix
    · rcases List.mem_cons.1 hix with rfl | hix
      · simp only [Option.some.injEq] at hm
        subst hm
        rcases List.mem_cons.1 hv with rfl | hv
        · simp [exDB] at hvar
        · simp at hv; subst hv; decide
      · simp at hix; subst hix; simp at hm
    · simp at hix
  · intro c ix hix _
    by_cases hc : c = 0
    · subst hc
      simp only [exDB, if_true] at hix
      rcases List.mem_cons.1 hix with rfl | hix
      · refine ⟨_, (buildIdx_hist (O 0) _ (fun r _ => hf r 0)).1, hnd.filter _, fun r => ?_⟩
        rw [List.mem_filter]
        refine and_congr_right fun hr => ?_
        simp only [Option.some.injEq, forall_eq', beq_iff_eq]
        constructor
        · intro h1
          refine ⟨Nat.two_pos, fun i v hi hv => ?_⟩
          match i with
          | 0 => simp at hi; subst hi; simp [exDB] at hv
          | 1 =>
            simp at hi; subst hi
            refine ⟨Nat.one_lt_two, ?_⟩
            show compare 2 (exFld vals r 1) = .eq
            rw [h1]; rfl
          | i + 2 => simp at hi
        · rintro ⟨_, h1⟩
          have := (h1 1 2 (by simp) (by simp [exDB])).2
          have h2 : compare (2 : Int) (exFld vals r 1) = .eq := this
          rw [compare_eq_iff_eq] at h2
          exact h2.symm
      · simp at hix
        subst hix
        refine ⟨_, (buildIdx_hist (O 0) _ (fun r _ => hf r 0)).1, hnd, fun r => ?_⟩
        have h2 : 0 < (exDB vals).len r := by show 0 < 2; decide
        simp only [h2, true_and, reduceCtorEq, false_imp_iff, implies_true, and_true]
        rfl
    · simp [exDB, hc] at hix

/-- Calls of `wg_fetch` until NULL, at most `n`. -/
def fetchAll (db : DB Int) (k : Nat) : Nat → Query Int → List Nat
  | 0, _ => []
  | n + 1, q => if (fetch db k q).1 = 0 then [] else (fetch db k q).1 :: fetchAll db k n (fetch db k q).2

def exVals : List Int := [40, 5, 5, 60, 5, 5, 5, 20, 5, 5, 5, 5, 5, 5, 5, 1, 5, 90, 5]

/-- A case for `C25_query_partial` and `C26_prefetch_partial`: value 5 spans several nodes; the index with the template is used. -/
example : WF (exDB exVals) (fun x => x ≠ 0) := exDB_wf exVals (by decide)

example : (makeQuery (exDB exVals) 90 none (some [⟨0, .gtEqual, 5⟩, ⟨1, .equal, 2⟩, ⟨0, .lessThan, 40⟩, ⟨0, .notEqual, 20⟩]) 0).map (fetchAll (exDB exVals) 90 20) = some [7, 10, 13, 19] ∧
    (makeQuery (exDB exVals) 90 (some [999, 3]) (some [⟨0, .greater, 5⟩]) 1).map (fetchAll (exDB exVals) 90 20) = some [8] ∧
    (makeQuery (exDB exVals) 90 (some [999, 3]) (some [⟨0, .greater, 5⟩]) 1).map (·.resCount) = some (some 1) := by
  decide +kernel

/-- A case for `C27_find_record`. -/
example : findRecord (exDB exVals) 90 0 .gtEqual 40 0 = 1 ∧ findRecord (exDB exVals) 90 0 .gtEqual 40 1 = 4 ∧ findRecord (exDB exVals) 90 0 .gtEqual 40 4 = 18 ∧
    findRecord (exDB exVals) 90 0 .gtEqual 40 18 = 0 ∧ findRecord (exDB exVals) 90 1 .equal 3 5 = 8 := by
  decide +kernel

/-- C25, failing case: `col > 5` and `col < 5` together have no solution, but with an index in which the rows with value 5 fill more than
one node the query returns rows with larger values. -/
theorem C25_gap_counterexample : WF (exDB exVals) (fun x => x ≠ 0) ∧
    (makeQuery (exDB exVals) 90 none (some [⟨0, .greater, 5⟩, ⟨0, .lessThan, 5⟩]) 0).map (fetchAll (exDB exVals) 90 20) = some [8, 1, 4, 18] ∧
    ∀ r, ¬ Wanted (exDB exVals) none (some [⟨0, .greater, 5⟩, ⟨0, .lessThan, 5⟩]) r := by
  refine ⟨exDB_wf exVals (by decide), by decide +kernel, ?_⟩
  rintro r ⟨_, h, _⟩
  have h1 := (h _ rfl ⟨0, .greater, 5⟩ (by simp)).2
  have h2 := (h _ rfl ⟨0, .lessThan, 5⟩ (by simp)).2
  simp only at h1 h2
  rw [h1] at h2
  cases h2

/-- C25, failing case: a condition with the illegal value, which no record satisfies, is ignored if its column has an index. -/
theorem C25_illegal_counterexample : WF (exDB exVals) (fun x => x ≠ 0) ∧
    (makeQuery (exDB exVals) 90 none (some [⟨0, .equal, 0⟩]) 0).map (fetchAll (exDB exVals) 90 20) = some [16, 12, 13, 14, 15, 17, 19, 11, 10, 9, 7, 6, 5, 3, 2, 8, 1, 4, 18] ∧
    ∀ r ∈ (exDB exVals).recs, ¬ Sat (exDB exVals) r ⟨0, .equal, 0⟩ :=
  ⟨exDB_wf exVals (by decide), by decide +kernel, by
    intro r hr h
    have := (exDB_wf exVals (by decide)).vals r hr 0 h.1
    have h2 := h.2
    simp only at h2
    exact (exDB_wf exVals (by decide)).ord 0 |>.ill this h2⟩

/-- C26, failing case: with conditions that contradict each other the number of rows is not assigned. -/
theorem C26_count_counterexample : WF (exDB exVals) (fun x => x ≠ 0) ∧
    (makeQuery (exDB exVals) 90 none (some [⟨0, .greater, 40⟩, ⟨0, .lessThan, 5⟩]) 0).map (·.resCount) = some none :=
  ⟨exDB_wf exVals (by decide), by decide +kernel⟩

end WG.Query
