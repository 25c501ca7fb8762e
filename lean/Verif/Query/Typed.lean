import Verif.Query.Props

/-!
# wg_find_record with values that are encoded at each call
-/
namespace WG.Query
open WG.TTree
variable {κ : Type} [DecidableEq κ]

/-- `wg_find_record_null`, ..., `wg_find_record_uri`, Db/dbquery.c lines 2157-2277: `enc` is the result of encoding the value, `none` for WG_ILLEGAL. That the parameter is then
freed (for the types that use memory) has no effect on the result. -/
def findTyped (db : DB κ) (k : Nat) (col : Nat) (c : Cond) (enc : Option κ) (last : Nat) : Nat := findRecord db k col c (enc.getD db.ill) last

/-- `FindsTyped db k col c enc i last rows`: calls number `i`, `i+1`, ..., each given the previous result and the first one `last`, return the records `rows` and then NULL. At each call the value
is encoded anew. -/
inductive FindsTyped (db : DB κ) (k col : Nat) (c : Cond) (enc : Nat → Option κ) : Nat → Nat → List Nat → Prop
  | done {i last : Nat} : findTyped db k col c (enc i) last = 0 → FindsTyped db k col c enc i last []
  | row {i last : Nat} {rows : List Nat} : findTyped db k col c (enc i) last ≠ 0 → FindsTyped db k col c enc (i + 1) (findTyped db k col c (enc i) last) rows →
      FindsTyped db k col c enc i last (findTyped db k col c (enc i) last :: rows)

/-- Two words that compare alike with all values. -/
def Alike (db : DB κ) (P : κ → Prop) (v w : κ) : Prop := ∀ x, P x → db.cmp x v = db.cmp x w

theorem head_mem : ∀ l : List Nat, l.headD 0 ≠ 0 → l.headD 0 ∈ l
  | [], h => absurd rfl h
  | _ :: _, _ => List.mem_cons_self

omit [DecidableEq κ] in
theorem first_mem (db : DB κ) : firstRec db ≠ 0 → firstRec db ∈ db.recs := head_mem db.recs

omit [DecidableEq κ] in
theorem next_mem (db : DB κ) (r : Nat) : nextRec db r ≠ 0 → nextRec db r ∈ db.recs :=
  fun h => (List.dropWhile_suffix _).subset (List.mem_of_mem_tail (head_mem _ h))

omit [DecidableEq κ] in
theorem alike_sat {db : DB κ} {P : κ → Prop} (hw : WF db P) {v w : κ} (h : Alike db P v w) {r : Nat} (hr : r ∈ db.recs) (col : Nat) (c : Cond) : Sat db r ⟨col, c, v⟩ ↔ Sat db r ⟨col, c, w⟩ := by
  unfold Sat
  refine and_congr_right fun hl => ?_
  have := h _ (hw.vals r hr col hl)
  cases c <;> simp only [this]

omit [DecidableEq κ] in
theorem alike_scan {db : DB κ} {P : κ → Prop} (hw : WF db P) {v w : κ} (h : Alike db P v w) (col : Nat) (c : Cond) : ∀ (k r : Nat), (r ≠ 0 → r ∈ db.recs) →
    findScan db ⟨col, c, v⟩ k r = findScan db ⟨col, c, w⟩ k r
  | 0, _, _ => rfl
  | k + 1, r, hr => by
    unfold findScan
    by_cases h0 : r = 0
    · rw [if_pos h0, if_pos h0]
    · rw [if_neg h0, if_neg h0]
      have e : checkArglist db r [⟨col, c, v⟩] = checkArglist db r [⟨col, c, w⟩] := by
        rw [Bool.eq_iff_iff, check_iff, check_iff]
        simp only [List.mem_singleton, forall_eq]
        exact alike_sat hw h (hr h0) col c
      rw [e, alike_scan hw h col c k (nextRec db r) (next_mem db r)]

theorem alike_find {db : DB κ} {P : κ → Prop} (hw : WF db P) {k col : Nat} {c : Cond} {v w : κ} (hc : c ≠ .other) (hv : P v) (hv2 : P w) (h : Alike db P v w) (hk : fuel db.recs.length ≤ k)
    (last : Nat) : findRecord db k col c v last = findRecord db k col c w last := by
  classical
  cases hci : (if c = .notEqual then none else columnIndex db col) with
  | none =>
    unfold findRecord
    rw [hci]
    simp only
    refine alike_scan hw h col c k _ ?_
    split_ifs
    · exact next_mem db last
    · exact first_mem db
  | some ix =>
    have hne : c ≠ .notEqual := by rintro rfl; simp at hci
    have hci2 := hci
    rw [if_neg hne] at hci2
    unfold columnIndex at hci2
    split_ifs at hci2
    have hix := List.mem_of_find?_eq_some hci2
    have h2 := List.find?_some hci2
    simp only [Bool.and_eq_true, Option.isNone_iff_eq_none] at h2
    obtain ⟨htt, htm⟩ := h2
    obtain ⟨l, hh, hnd, hl⟩ := hw.index col ix hix htt
    obtain ⟨O, l', hi, hpm⟩ := hist_index hh
    have hl' : ∀ r, r ∈ l' ↔ r ∈ db.recs ∧ col < db.len r := fun r => by rw [hpm.mem_iff, hl]; simp [htm]
    have hlen : l'.length ≤ db.recs.length := by
      exact ((List.subperm_of_subset (hpm.nodup_iff.2 hnd) fun r hr => ((hl' r).1 hr).1)).length_le
    have hlc : ∀ r ∈ l', col < db.len r := fun r hr => ((hl' r).1 hr).2
    have main : ∀ v, P v → findRecord db k col c v last = after (0 :: l'.filter (fun r => decide (Sat db r ⟨col, c, v⟩))) last := by
      intro v hv
      have hvi : v ≠ db.ill := by
        rintro rfl
        have O0 := hw.ord 0
        exact O0.ill hv (by have := O0.swap hv hv; revert this; simp only [DB.env]; cases db.cmp db.ill db.ill <;> simp)
      have step : ∀ sb eb si ei, findArgs db c v = some (sb, eb, si, ei) → (sb = db.ill ∨ P sb) → (eb = db.ill ∨ P eb) →
          (∀ x ∈ l', Below (db.env col) sb si x → Within (db.env col) eb ei x) →
          (∀ r ∈ l', (LowOk db sb si (db.fld r col) ∧ HighOk db eb ei (db.fld r col)) ↔ Sat db r ⟨col, c, v⟩) →
          findRecord db k col c v last = after (0 :: l'.filter (fun r => decide (Sat db r ⟨col, c, v⟩))) last := by
        intro sb eb si ei hfa h1 h2 hle hsat
        obtain ⟨rg, hfb, hrr⟩ := findBounds_res O hi (i1 := si) (i2 := ei) h1 h2 (k := k) (by unfold fuel at hk ⊢; omega) hle
        have hkr : db.recs.length < k := by unfold fuel at hk; omega
        have hrl : (rangeRows ix.st k rg).length < k := by
          rw [hrr]
          exact Nat.lt_of_le_of_lt (List.length_filter_le _ _) (by omega)
        have e : rangeRows ix.st k rg = l'.filter (fun r => decide (Sat db r ⟨col, c, v⟩)) := by
          rw [hrr]
          refine List.filter_congr fun r hr => ?_
          rw [Bool.eq_iff_iff, Bool.and_eq_true, decide_eq_true_iff, decide_eq_true_iff, decide_eq_true_iff, below_iff, within_iff]
          exact hsat r hr
        rw [← e]
        unfold findRecord
        rw [hci]
        simp only [hfa, hfb]
        exact findTree_res (ends_range ix.st k rg hrl) k 0 hrl
      cases hcd : c with
      | notEqual => exact absurd hcd hne
      | other => exact absurd hcd hc
      | equal =>
        rw [← hcd]
        refine step v v true true (by rw [hcd]; rfl) (.inr hv) (.inr hv) ?_ ?_
        · intro x _ hb
          exact .inr (by have := hb.2; simp only [if_true] at this ⊢; rw [this]; simp)
        · intro r hr
          have := hlc r hr
          simp only [LowOk, HighOk, Sat, hcd, ne_eq, hvi, not_false_eq_true, forall_const, if_true, this, true_and]
          cases db.cmp (db.fld r col) v <;> simp
      | lessThan =>
        rw [← hcd]
        refine step db.ill v true false (by rw [hcd]; rfl) (.inl rfl) (.inr hv) (fun x _ hb => absurd rfl hb.1) ?_
        intro r hr
        have := hlc r hr
        simp [LowOk, HighOk, Sat, hcd, hvi, this]
      | greater =>
        rw [← hcd]
        refine step v db.ill false true (by rw [hcd]; rfl) (.inr hv) (.inl rfl) (fun x _ _ => .inl rfl) ?_
        intro r hr
        have := hlc r hr
        simp [LowOk, HighOk, Sat, hcd, hvi, this]
      | ltEqual =>
        rw [← hcd]
        refine step db.ill v true true (by rw [hcd]; rfl) (.inl rfl) (.inr hv) (fun x _ hb => absurd rfl hb.1) ?_
        intro r hr
        have := hlc r hr
        simp [LowOk, HighOk, Sat, hcd, hvi, this]
      | gtEqual =>
        rw [← hcd]
        refine step v db.ill true true (by rw [hcd]; rfl) (.inr hv) (.inl rfl) (fun x _ _ => .inl rfl) ?_
        intro r hr
        have := hlc r hr
        simp [LowOk, HighOk, Sat, hcd, hvi, this]
    rw [main v hv, main w hv2]
    have e : l'.filter (fun r => decide (Sat db r ⟨col, c, v⟩)) = l'.filter (fun r => decide (Sat db r ⟨col, c, w⟩)) := by
      refine List.filter_congr fun r hr => ?_
      have := alike_sat hw h ((hl' r).1 hr).1 col c
      simp only [this]
    rw [e]

/-- **C84.** Repeated calls of a function that finds records by a value which is not encoded (`wg_find_record_int`, `wg_find_record_str`, ...), where the encoding succeeds at each call
but may give another word each time: they return every record whose column satisfies the condition exactly once and then NULL, with or without an index. -/
theorem C84_typed_partial {db : DB κ} {P : κ → Prop} (hw : WF db P) (col : Nat) (c : Cond) (hc : c ≠ .other) (v : κ) (hv : P v) (enc : Nat → Option κ)
    (he : ∀ i, ∃ w, enc i = some w ∧ P w ∧ Alike db P w v) (k : Nat) (hk : fuel db.recs.length ≤ k) :
    ∃ rows, FindsTyped db k col c enc 0 0 rows ∧ rows.Nodup ∧ ∀ r, r ∈ rows ↔ r ∈ db.recs ∧ Sat db r ⟨col, c, v⟩ := by
  obtain ⟨rows, h1, h2, h3⟩ := C27_find_record hw col c hc v hv k hk
  refine ⟨rows, ?_, h2, h3⟩
  have e : ∀ i last, findTyped db k col c (enc i) last = findRecord db k col c v last := by
    intro i last
    obtain ⟨w, hx, hp, ha⟩ := he i
    unfold findTyped
    rw [hx]
    exact alike_find hw hc hp hv ha hk last
  have key : ∀ (last : Nat) (rows : List Nat), Finds db k col c v last rows → ∀ i, FindsTyped db k col c enc i last rows := by
    intro last rows h
    induction h with
    | done hd => exact fun i => .done (by rw [e]; exact hd)
    | @row last rows hd _ ih =>
      intro i
      have := FindsTyped.row (db := db) (k := k) (col := col) (c := c) (enc := enc) (i := i) (last := last) (rows := rows) (by rw [e]; exact hd) (by rw [e]; exact ih (i + 1))
      rwa [e] at this
  exact key 0 rows h1 0

/-- A value that is not encoded is never found in a column without an index: the calls return NULL, as they should. -/
theorem C84_illegal_scan {db : DB κ} {P : κ → Prop} (hw : WF db P) (col : Nat) (hci : columnIndex db col = none) (k last : Nat) : findTyped db k col .equal none last = 0 := by
  have key : ∀ (k r : Nat), (r ≠ 0 → r ∈ db.recs) → findScan db ⟨col, .equal, db.ill⟩ k r = 0 := by
    intro k
    induction k with
    | zero => exact fun _ _ => rfl
    | succ k ih =>
      intro r hr
      unfold findScan
      by_cases h0 : r = 0
      · rw [if_pos h0]
      · rw [if_neg h0, if_neg, ih _ (next_mem db r)]
        rw [check_iff]
        simp only [List.mem_singleton, forall_eq]
        rintro ⟨h1, h2⟩
        exact (hw.ord 0).ill (hw.vals r (hr h0) col h1) h2
  unfold findTyped findRecord
  rw [if_neg (by decide), hci]
  simp only
  refine key k _ ?_
  split_ifs
  · exact next_mem db last
  · exact first_mem db

/-- Records 1, ..., 6 with one column, without index. The words are pairs: a value and the place where it is stored, which does not matter for comparisons. -/
def placedDB : DB (Int × Nat) :=
  { recs := [1, 2, 3, 4, 5, 6], len := fun _ => 1, fld := fun r _ => (((r * 5 % 7 : Nat) : Int) - 3 + (if r * 5 % 7 ≤ 3 then -1 else 0), r), cmp := fun a b => compare a.1 b.1,
    isVar := fun _ => false, ill := (0, 0), null := (99, 0), idx := fun _ => [] }

theorem placedDB_wf : WF placedDB (fun x => x.1 ≠ 0) where
  ord := fun c => ⟨fun _ _ => by
    simp only [placedDB, DB.env]
    exact (Std.OrientedCmp.eq_swap (cmp := (compare : Int → Int → Ordering))), by
    intro a b c _ _ _ h1 h2
    simp only [placedDB, DB.env, Env.le] at h1 h2 ⊢
    rw [ne_eq, compare_gt_iff_gt, not_lt] at *
    exact le_trans h1 h2, by
    intro a ha h
    simp only [placedDB, DB.env] at h
    rw [compare_eq_iff_eq] at h
    exact ha h⟩
  nodup := by decide
  nz := by decide
  vals := by
    intro r hr c _
    simp only [placedDB, List.mem_cons, List.not_mem_nil, or_false] at hr
    rcases hr with rfl | rfl | rfl | rfl | rfl | rfl <;> simp [placedDB]
  tmpl := fun c ix h => by simp [placedDB] at h
  index := fun c ix h => by simp [placedDB] at h

/-- The records returned by at most `n` calls. -/
def typedLoop (db : DB κ) (k col : Nat) (c : Cond) (enc : Nat → Option κ) : Nat → Nat → Nat → Option (List Nat)
  | 0, _, _ => none
  | n + 1, i, last => if findTyped db k col c (enc i) last = 0 then some []
    else (typedLoop db k col c enc n (i + 1) (findTyped db k col c (enc i) last)).map (findTyped db k col c (enc i) last :: ·)

theorem loop_finds (db : DB κ) (k col : Nat) (c : Cond) (enc : Nat → Option κ) : ∀ (n i last : Nat) (rows : List Nat), typedLoop db k col c enc n i last = some rows →
    FindsTyped db k col c enc i last rows
  | 0, _, _, _, h => by cases h
  | n + 1, i, last, rows, h => by
    unfold typedLoop at h
    split_ifs at h with h0
    · cases h
      exact .done h0
    · obtain ⟨l, h1, rfl⟩ := Option.map_eq_some_iff.1 h
      exact .row h0 (loop_finds db k col c enc n (i + 1) _ l h1)

/-- A case for `C84_typed_partial`: the word is another one at each call. -/
theorem demo_typed : (∃ rows, FindsTyped placedDB 30 0 .gtEqual (fun i => some (1, i + 100)) 0 0 rows ∧ rows.Nodup ∧ ∀ r, r ∈ rows ↔ r ∈ placedDB.recs ∧ Sat placedDB r ⟨0, .gtEqual, (1, 0)⟩) ∧
    FindsTyped placedDB 30 0 .gtEqual (fun i => some (1, i + 100)) 0 0 [1, 4, 5] :=
  ⟨C84_typed_partial placedDB_wf 0 .gtEqual (by decide) (1, 0) (show (1 : Int) ≠ 0 by decide) (fun i => some (1, i + 100)) (fun i => ⟨_, rfl, show (1 : Int) ≠ 0 by decide, fun x _ => rfl⟩) 30 (by decide),
    loop_finds _ _ _ _ _ 9 _ _ _ (by decide +kernel)⟩

/-- C84, failing case: if the value cannot be encoded (a day or a number that is out of range, no memory), the search is for the illegal value, which in a column with an index finds every record,
though in one without an index it finds none. -/
theorem C84_illegal_counterexample : WF (exDB exVals) (fun x => x ≠ 0) ∧
    FindsTyped (exDB exVals) 90 0 .equal (fun _ => none) 0 0 [16, 12, 13, 14, 15, 17, 19, 11, 10, 9, 7, 6, 5, 3, 2, 8, 1, 4, 18] ∧ findTyped (exDB exVals) 90 1 .equal none 0 = 0 :=
  ⟨exDB_wf exVals (by decide), loop_finds _ _ _ _ _ 30 _ _ _ (by decide +kernel), C84_illegal_scan (exDB_wf exVals (by decide)) 1 rfl 90 0⟩

end WG.Query
