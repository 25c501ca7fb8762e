import Verif.TTree.Lookup
import Verif.Compare.Props
/-!
# Properties of T-tree indexes (C22, C23, C24)

`Verif/TTree/Spec.lean` has the notions used in the statements: `Hist` (histories), `walk`, `Linked`, `Ht`, `Ord`.
-/
namespace WG.TTree
variable {κ : Type}

/-! ## C22 -/

/-- C22: after any history the rows met when walking from the first node to the last are exactly the rows inserted and not removed (as
a multiset), in non-decreasing order of their values; walking backwards meets them in the opposite order. -/
theorem C22_contents_in_order {E : Env κ} {P : κ → Prop} {s : St κ} {l : List Nat} (h : Hist E P s l) (k : Nat) (hk : l.length + 2 ≤ k) :
    (walk s k s.minN).Perm l ∧ (walk s k s.minN).Pairwise (fun a b => E.cmp (E.key a) (E.key b) ≠ .gt) ∧
    walkBack s k s.maxN = (walk s k s.minN).reverse := by
  obtain ⟨O, l', hi, hp⟩ := hist_index h
  obtain ⟨h1, h2⟩ := index_walk hi (k := k) (by rw [hp.length_eq]; exact hk)
  rw [h1, h2]
  refine ⟨hp, ?_, rfl⟩
  rcases hi with ⟨_, rfl⟩ | ⟨_, _, _, hs, _⟩
  · exact .nil
  · exact hs.pw

/-- C22: with a node available, an insertion succeeds; a removal succeeds if the row is in the index, and otherwise reports that and
changes nothing. (The error branches for a broken node chain are never taken.) -/
theorem C22_no_panic {E : Env κ} {P : κ → Prop} {s : St κ} {l : List Nat} (h : Hist E P s l) (row k : Nat) (hp : P (E.key row)) (hk : fuel l.length ≤ k) :
    (∀ nn, nn ≠ 0 → ¬ Linked s nn → (addRow E k s (some nn) row).2 = 0) ∧
    (row ∈ l → (removeRow E k s row).2.2 = 0) ∧
    (row ∉ l → ((removeRow E k s row).2.2 = -2 ∨ (removeRow E k s row).2.2 = -3) ∧ (removeRow E k s row).1 = s) := by
  obtain ⟨O, l', hi, hpm⟩ := hist_index h
  rw [← hpm.length_eq] at hk
  refine ⟨fun nn h0 hl => (index_add O hi hp h0 hl hk).1, fun hm => ?_, fun hm => ?_⟩
  · exact ((index_remove O hi hp hk).2.1 (hpm.mem_iff.2 hm)).1
  · have := (index_remove O hi hp hk).2.2 (fun h => hm (hpm.mem_iff.1 h))
    exact ⟨this.1, this.2.1⟩

/-- C22: an insertion links at most the new node into the tree; a removal gives back to the allocator exactly the nodes that it
unlinks. So the node that the allocator offers is never one in use by the index. -/
theorem C22_nodes {E : Env κ} {P : κ → Prop} {s : St κ} {l : List Nat} (h : Hist E P s l) (row k : Nat) (hp : P (E.key row)) (hk : fuel l.length ≤ k) :
    (∀ nn, nn ≠ 0 → ¬ Linked s nn → ∀ i, (Linked s i → Linked (addRow E k s (some nn) row).1 i) ∧ (Linked (addRow E k s (some nn) row).1 i → Linked s i ∨ i = nn)) ∧
    (∀ i, (Linked s i ↔ i ∈ (removeRow E k s row).2.1 ∨ Linked (removeRow E k s row).1 i) ∧ ¬ (i ∈ (removeRow E k s row).2.1 ∧ Linked (removeRow E k s row).1 i)) := by
  obtain ⟨O, l', hi, hpm⟩ := hist_index h
  rw [← hpm.length_eq] at hk
  refine ⟨fun nn h0 hl => ?_, fun i => ?_⟩
  · obtain ⟨_, _, _, _, h4⟩ := index_add O hi hp h0 hl hk
    exact h4
  · by_cases hm : row ∈ l'
    · exact ((index_remove O hi hp hk).2.1 hm).2 i
    · obtain ⟨_, h2, h3⟩ := (index_remove O hi hp hk).2.2 hm
      rw [h2, h3]
      simp

/-- C22, when no node can be allocated: an insertion that does not need a node succeeds as usual; one that needs a node reports -1 and
either changes nothing or has put the row in at the cost of some other row `m`, which is lost. What is missing from the full property is
that a failing insertion changes nothing; `C22_nomem_counterexample` shows that it does. -/
theorem C22_nomem_partial {E : Env κ} {P : κ → Prop} {s : St κ} {l : List Nat} (h : Hist E P s l) (row k : Nat) (hp : P (E.key row)) (hk : fuel l.length ≤ k) :
    let x := addRow E k s none row
    let w := walk x.1 (k + 2) x.1.minN
    (x.2 = 0 ∧ w.Perm (row :: l)) ∨ (x.2 = -1 ∧ (x.1 = s ∨ ∃ m ∈ l, w.Perm (row :: l.erase m))) := by
  obtain ⟨O, l', hi, hpm⟩ := hist_index h
  rw [← hpm.length_eq] at hk
  obtain ⟨l2, h2, h3⟩ := index_add_nomem O hi hp hk
  have hfl : l'.length + 2 ≤ k := by unfold fuel at hk; omega
  have hw : l2.length ≤ l'.length + 1 → walk (addRow E k s none row).1 (k + 2) (addRow E k s none row).1.minN = l2 := fun hl => (index_walk h2 (by omega)).1
  rcases h3 with ⟨a, b⟩ | ⟨a, ⟨b, rfl⟩ | ⟨A, m, B, rfl, b⟩⟩
  · refine .inl ⟨a, ?_⟩
    rw [hw (by rw [b.perm.length_eq]; simp)]
    exact b.perm.trans (hpm.cons row)
  · exact .inr ⟨a, .inl b⟩
  · refine .inr ⟨a, .inr ⟨m, hpm.mem_iff.1 (by simp), ?_⟩⟩
    rw [hw (by rw [b.perm.length_eq]; simp)]
    refine b.perm.trans (List.Perm.cons row ?_)
    have := hpm.erase m
    refine List.Perm.trans ?_ this
    have h4 : (A ++ m :: B).Perm (m :: (A ++ B)) := List.perm_middle
    have h5 := h4.erase m
    rw [List.erase_cons_head] at h5
    exact h5.symm

/-! ## C23 -/

/-- C23: at every node of the tree the stored heights are the real heights of its two subtrees, and these differ by at most one. -/
theorem C23_balanced {E : Env κ} {P : κ → Prop} {s : St κ} {l : List Nat} (h : Hist E P s l) (i : Nat) (hi : Linked s i) :
    Ht s (s.h i).left (s.h i).lh ∧ Ht s (s.h i).right (s.h i).rh ∧ (s.h i).lh ≤ (s.h i).rh + 1 ∧ (s.h i).rh ≤ (s.h i).lh + 1 := by
  obtain ⟨O, l', hx, hpm⟩ := hist_index h
  exact index_avl hx hi

/-- C23: the height of the tree is logarithmic in the number of rows: at most `2 log2 (rows + 1) + 1`. In particular the stored heights
never overflow an unsigned char with fewer than 2^127 rows. -/
theorem C23_height_bound {E : Env κ} {P : κ → Prop} {s : St κ} {l : List Nat} (h : Hist E P s l) : ∃ n, Ht s s.root n ∧ 2 ^ (n / 2) ≤ l.length + 1 := by
  obtain ⟨O, l', hx, hpm⟩ := hist_index h
  rw [← hpm.length_eq]
  exact index_height hx

/-! ## C24 -/

/-- C24: `wg_search_ttree_index` returns the first row, in index order, whose value equals the key, and 0 if no row has that value. -/
theorem C24_lookup {E : Env κ} {P : κ → Prop} {s : St κ} {l : List Nat} (h : Hist E P s l) (key : κ) (hp : P key) (k : Nat) (hk : fuel l.length ≤ k) :
    searchIndex E k s key = (((walk s k s.minN).find? (fun r => E.cmp (E.key r) key == .eq)).getD 0 : Nat) := by
  obtain ⟨O, l', hx, hpm⟩ := hist_index h
  rw [← hpm.length_eq] at hk
  rw [(index_walk hx (by unfold fuel at hk; omega)).1]
  exact searchIndex_res O hx hp hk

/-- C24: in terms of the inserted rows only. -/
theorem C24_found_iff {E : Env κ} {P : κ → Prop} {s : St κ} {l : List Nat} (h : Hist E P s l) (h0 : 0 ∉ l) (key : κ) (hp : P key) (k : Nat) (hk : fuel l.length ≤ k) :
    (searchIndex E k s key ≠ 0 ↔ ∃ r ∈ l, E.cmp (E.key r) key = .eq) ∧
    (∀ r : Nat, searchIndex E k s key = r → r ≠ 0 → r ∈ l ∧ E.cmp (E.key r) key = .eq) := by
  obtain ⟨O, l', hx, hpm⟩ := hist_index h
  rw [← hpm.length_eq] at hk
  rw [searchIndex_res O hx hp hk]
  cases hf : l'.find? (fun r => E.cmp (E.key r) key == .eq) with
  | none =>
    rw [List.find?_eq_none] at hf
    refine ⟨?_, fun r hr h => absurd (by simpa using hr.symm) h⟩
    simp only [Option.getD_none, Nat.cast_zero, ne_eq, not_true_eq_false, false_iff, not_exists, not_and]
    intro r hr he
    exact hf r (hpm.mem_iff.2 hr) (by simp [he])
  | some x =>
    have h1 := List.mem_of_find?_eq_some hf
    have h2 := List.find?_some hf
    simp only [beq_iff_eq] at h2
    have hm := hpm.mem_iff.1 h1
    refine ⟨⟨fun _ => ⟨x, hm, h2⟩, fun _ => ?_⟩, ?_⟩
    · simp only [Option.getD_some, ne_eq, Nat.cast_eq_zero]
      rintro rfl; exact h0 hm
    · intro r hr _
      simp only [Option.getD_some, Nat.cast_inj] at hr
      subst hr
      exact ⟨hm, h2⟩

/-- C24: the start of a range. With an inclusive bound the position found is that of the first row whose value is not less than the
bound, with an exclusive bound that of the first row whose value is greater, also if equal values span several nodes. -/
theorem C24_first_position [DecidableEq κ] {E : Env κ} {P : κ → Prop} {s : St κ} {l : List Nat} (h : Hist E P s l) (b : κ) (hp : P b) (hb : b ≠ E.ill) (inc : Bool)
    (k : Nat) (hk : fuel l.length ≤ k) :
    ∃ x, startPos E k s b inc = some x ∧
      walkFrom s k x = (walk s k s.minN).dropWhile (fun r => if inc then E.cmp (E.key r) b == .lt else E.cmp (E.key r) b != .gt) := by
  obtain ⟨O, l', hx, hpm⟩ := hist_index h
  rw [← hpm.length_eq] at hk
  rw [(index_walk hx (by unfold fuel at hk; omega)).1]
  rcases hx with ⟨he, rfl⟩ | ⟨t, hw, hne, hs, rfl⟩
  · obtain ⟨k, rfl⟩ : ∃ j, k = j + 2 := ⟨k - 2, by unfold fuel at hk; omega⟩
    have hill := O.ill hp
    unfold startPos
    rw [if_neg hb]
    cases inc with
    | true =>
      cases hc : E.cmp b E.ill with
      | lt => exact ⟨(s.root, 0), by simp [searchLeft, he.mn, he.mx, he.left, hc], by simp [walkFrom, walk, he.vals, he.succ]⟩
      | eq => exact absurd hc hill
      | gt => exact ⟨(0, 0), by simp [searchLeft, he.mx, he.right, hc, he.succ], by simp [walkFrom]⟩
    | false =>
      cases hc : E.cmp b E.ill with
      | lt => exact ⟨(s.root, 0), by simp [searchRight, he.mn, he.left, hc], by simp [walkFrom, walk, he.vals, he.succ]⟩
      | eq => exact absurd hc hill
      | gt => exact ⟨(0, 0), by simp [searchRight, he.mn, he.mx, he.right, hc, he.succ], by simp [walkFrom]⟩
  · have hn := nodes_length_le hw.nok
    have hh := height_le_nodes t
    cases inc with
    | true =>
      obtain ⟨x, n, h1, h2, h3⟩ := startPos_incl O hw hne hs hp hb (k := k) (by unfold fuel at hk; omega)
      refine ⟨x, h1, ?_⟩
      rw [startAt_walk hw h2 (by unfold fuel at hk; omega), splits_drop h3]
      congr 1
    | false =>
      obtain ⟨x, n, h1, h2, h3⟩ := startPos_excl O hw hne hs hp hb (k := k) (by unfold fuel at hk; omega)
      refine ⟨x, h1, ?_⟩
      rw [startAt_walk hw h2 (by unfold fuel at hk; omega), splits_drop h3]
      congr 1
      funext r
      simp only [Bool.false_eq_true, if_false]
      cases E.cmp (E.key r) b <;> rfl

/-- C24: the end of a range. With an inclusive bound the position found is that of the last row whose value is not greater than the
bound, with an exclusive bound that of the last row whose value is less. -/
theorem C24_last_position [DecidableEq κ] {E : Env κ} {P : κ → Prop} {s : St κ} {l : List Nat} (h : Hist E P s l) (b : κ) (hp : P b) (hb : b ≠ E.ill) (inc : Bool)
    (k : Nat) (hk : fuel l.length ≤ k) :
    ∃ x, endPos E k s b inc = some x ∧
      walkBackFrom s k x = (walkBack s k s.maxN).dropWhile (fun r => if inc then E.cmp (E.key r) b == .gt else E.cmp (E.key r) b != .lt) := by
  obtain ⟨O, l', hx, hpm⟩ := hist_index h
  rw [← hpm.length_eq] at hk
  rw [(index_walk hx (by unfold fuel at hk; omega)).2]
  rcases hx with ⟨he, rfl⟩ | ⟨t, hw, hne, hs, rfl⟩
  · obtain ⟨k, rfl⟩ : ∃ j, k = j + 2 := ⟨k - 2, by unfold fuel at hk; omega⟩
    have hill := O.ill hp
    unfold endPos
    rw [if_neg hb]
    cases inc with
    | true =>
      cases hc : E.cmp b E.ill with
      | lt => exact ⟨(0, -1), by simp [searchRight, he.mn, he.left, hc, he.pred, lastSlot], by simp [walkBackFrom]⟩
      | eq => exact absurd hc hill
      | gt => exact ⟨(s.root, -1), by simp [searchRight, he.mn, he.mx, he.right, hc, he.vals], by simp [walkBackFrom, walkBack, he.vals, he.pred]⟩
    | false =>
      cases hc : E.cmp b E.ill with
      | lt => exact ⟨(0, -1), by simp [searchLeft, he.mn, he.mx, he.left, hc, he.pred, lastSlot], by simp [walkBackFrom]⟩
      | eq => exact absurd hc hill
      | gt => exact ⟨(s.root, -1), by simp [searchLeft, he.mx, he.right, hc, he.vals], by simp [walkBackFrom, walkBack, he.vals, he.pred]⟩
  · have hn := nodes_length_le hw.nok
    have hh := height_le_nodes t
    cases inc with
    | true =>
      obtain ⟨x, n, h1, h2, h3⟩ := endPos_incl O hw hne hs hp hb (k := k) (by unfold fuel at hk; omega)
      refine ⟨x, h1, ?_⟩
      rw [endAt_walk hw h2 (by unfold fuel at hk; omega), splits_take h3]
      congr 1
      funext r
      simp only [if_true]
      cases E.cmp (E.key r) b <;> rfl
    | false =>
      obtain ⟨x, n, h1, h2, h3⟩ := endPos_excl O hw hne hs hp hb (k := k) (by unfold fuel at hk; omega)
      refine ⟨x, h1, ?_⟩
      rw [endAt_walk hw h2 (by unfold fuel at hk; omega), splits_take h3]
      congr 1
      funext r
      simp only [Bool.false_eq_true, if_false]
      cases E.cmp (E.key r) b <;> rfl

/-! ## The comparison of the database -/

/-- The environment of an index in the database: `key` is the value of the indexed column in a record, values are compared with
`WG_COMPARE`, and `WG_ILLEGAL` is 0xff (Db/dbdata.h line 76). -/
def wgEnv (m : Reader) (key : Nat → Word) : Env Word :=
  { key := key, cmp := fun a b => compare (WG_COMPARE m a b) 0, ill := 0xff#64 }

/-- Encoded values without NaN meet the assumption of the theorems above. -/
theorem wgEnv_ord {m : Reader} {V : Word → Prop} (hV : Ordered m V) (hill : m.typ 0xff#64 = none) (key : Nat → Word) : Ord (wgEnv m key) V := by
  have hlt : ∀ x : Int, compare x 0 = .lt ↔ x < 0 := fun x => by rw [compare_lt_iff_lt]
  have hgt : ∀ x : Int, compare x 0 = .gt ↔ 0 < x := fun x => by rw [compare_gt_iff_gt]
  have heq : ∀ x : Int, compare x 0 = .eq ↔ x = 0 := fun x => by rw [compare_eq_iff_eq]
  refine ⟨?_, ?_, ?_⟩
  · intro a b ha hb
    have h := cmp_antisymm hV a b ha hb
    simp only [wgEnv]
    rcases h.2.2 with e | e | e
    · have e2 : WG_COMPARE m b a = 1 := by omega
      rw [e, e2]; decide
    · have e2 : WG_COMPARE m b a = 0 := by omega
      rw [e, e2]; decide
    · have e2 : WG_COMPARE m b a = -1 := by omega
      rw [e, e2]; decide
  · intro a b c ha hb hc h1 h2
    simp only [Env.le, wgEnv, ne_eq, hgt] at *
    have := (cmp_trans hV a b c ha hb hc (by omega) (by omega)).1
    omega
  · intro a ha
    simp only [wgEnv, ne_eq, heq]
    obtain ⟨t, ht⟩ := hV.typ a ha
    have hne : a ≠ 0xff#64 := by rintro rfl; rw [hill] at ht; cases ht
    have htc : typeCode m a ≠ typeCode m 0xff#64 := by
      unfold typeCode
      rw [ht, hill]
      cases t <;> decide
    unfold WG_COMPARE
    rw [if_neg hne]
    unfold wgCompare
    simp only []
    rw [if_neg (Ne.symm htc)]
    unfold gtElseLt
    split <;> decide

/-- The same for the values of a memory segment. -/
theorem segEnv_ord {m : Seg} {V : Word → Prop} (hV : ValueSet m V) (key : Nat → Word) : Ord (wgEnv m key) V :=
  wgEnv_ord hV.ordered (show getEncodedType m.mem 0xff#64 = none by simp [getEncodedType, isVar, isSmallint]) key

/-! ## Concrete cases -/

/-- Rows 1, 2, ... with the values 10, 20, ... in one column; the illegal value is 0. -/
def exE : Env Int := { key := fun r => 10 * (r : Int), cmp := compare, ill := 0 }

theorem exE_ord : Ord exE (fun x => x ≠ 0) := by
  refine ⟨?_, ?_, ?_⟩
  · intro a b _ _
    simp only [exE]
    exact (Std.OrientedCmp.eq_swap (cmp := (compare : Int → Int → Ordering)))
  · intro a b c _ _ _ h1 h2
    simp only [Env.le, exE, ne_eq, compare_gt_iff_gt] at *
    omega
  · intro a ha
    simp only [exE, ne_eq, compare_eq_iff_eq]
    exact ha

def exNd : Nd Int := { parent := 0, left := 0, right := 0, lh := 0, rh := 0, mn := 0, mx := 0, vals := [], succ := 0, pred := 0 }

/-- Create an index and insert the rows of a list (its last element first). Nodes come from offsets 100, 101, ... -/
def exRun : List Nat → St Int
  | [] => create exE (fun _ => exNd) 100
  | r :: l => (addRow exE (fuel l.length) (exRun l) (some (101 + l.length)) r).1

theorem exRun_hist (l : List Nat) (h0 : 0 ∉ l) : Hist exE (fun x => x ≠ 0) (exRun l) l ∧ ∀ i, Linked (exRun l) i → i ≤ 100 + l.length := by
  induction l with
  | nil =>
    refine ⟨.create _ 100 exE_ord (by decide), ?_⟩
    intro i hi
    induction hi with
    | root _ => simp [exRun, create]
    | left a b c => simp [exRun, create, exNd] at b; split at b <;> simp at b
    | right a b c => simp [exRun, create, exNd] at b; split at b <;> simp at b
  | cons r l ih =>
    obtain ⟨h1, h2⟩ := ih (fun h => h0 (by simp [h]))
    have hr : exE.key r ≠ 0 := by
      simp only [exE]
      have : r ≠ 0 := by rintro rfl; simp at h0
      omega
    have hf : ¬ Linked (exRun l) (101 + l.length) := fun h => by have := h2 _ h; omega
    refine ⟨.add _ _ _ h1 hr (by omega) hf (Nat.le_refl _), fun i hi => ?_⟩
    rcases (((C22_nodes h1 r _ hr (Nat.le_refl _)).1 _ (by omega) hf i).2 hi) with h | h
    · have := h2 _ h
      simp only [List.length_cons]; omega
    · simp only [List.length_cons]; omega

/-- Twenty rows inserted out of order, with two of them twice: the tree has more than one level. -/
def exRows : List Nat := [3, 17, 9, 1, 20, 14, 2, 8, 8, 11, 19, 5, 16, 4, 12, 7, 18, 6, 13, 10, 15, 3]

/-- A case for `C22_contents_in_order`, `C22_no_panic`, `C22_nodes`, `C22_nomem_partial`, `C23_balanced`, `C23_height_bound`,
`C24_lookup`, `C24_found_iff`. -/
example : Hist exE (fun x => x ≠ 0) (exRun exRows) exRows := (exRun_hist exRows (by decide)).1

example : walk (exRun exRows) 24 (exRun exRows).minN = [1, 2, 3, 3, 4, 5, 6, 7, 8, 8, 9, 10, 11, 12, 13, 14, 15, 16, 17, 18, 19, 20] ∧
    (exRun exRows).root ≠ (exRun exRows).minN := by
  decide +kernel

/-- A case for the removal part: the row is removed once, then again. -/
example : Hist exE (fun x => x ≠ 0) (removeRow exE 80 (exRun exRows) 8).1 (exRows.erase 8) ∧
    searchIndex exE 80 (exRun exRows) 80 = 8 ∧ searchIndex exE 80 (exRun exRows) 85 = 0 :=
  ⟨.remove 80 8 (exRun_hist exRows (by decide)).1 (by decide) (by decide), by decide +kernel, by decide +kernel⟩

/-- A case for the positions: value 80 occurs twice, values 75 and 1000 do not occur. -/
example : (∃ x, startPos exE 80 (exRun exRows) 80 true = some x ∧ walkFrom (exRun exRows) 80 x = [8, 8, 9, 10, 11, 12, 13, 14, 15, 16, 17, 18, 19, 20]) ∧
    (∃ x, endPos exE 80 (exRun exRows) 75 false = some x ∧ walkBackFrom (exRun exRows) 80 x = [7, 6, 5, 4, 3, 3, 2, 1]) ∧
    (∃ x, startPos exE 80 (exRun exRows) 1000 true = some x ∧ walkFrom (exRun exRows) 80 x = []) :=
  ⟨⟨(startPos exE 80 (exRun exRows) 80 true).get!, by decide +kernel⟩, ⟨(endPos exE 80 (exRun exRows) 75 false).get!, by decide +kernel⟩,
    ⟨(startPos exE 80 (exRun exRows) 1000 true).get!, by decide +kernel⟩⟩

/-- C22, failing case: an index with a full node and no memory for another node. The insertion reports an error but has changed the
index: the new row 5 is in, and the row 1 that was in the index is gone. -/
theorem C22_nomem_counterexample : ∃ (s : St Int) (l : List Nat), Hist exE (fun x => x ≠ 0) s l ∧ 1 ∈ l ∧
    (addRow exE (fuel l.length) s none 5).2 = -1 ∧
    walk (addRow exE (fuel l.length) s none 5).1 (l.length + 4) (addRow exE (fuel l.length) s none 5).1.minN = [2, 3, 4, 5, 6, 7, 8, 9] :=
  ⟨exRun [9, 8, 7, 6, 4, 3, 2, 1], [9, 8, 7, 6, 4, 3, 2, 1], (exRun_hist _ (by decide)).1, by decide, by decide +kernel, by decide +kernel⟩

/-- The instance for encoded values is not vacuous. -/
example : ∃ V, Ord (wgEnv exSeg (fun _ => 0x1f#64)) V ∧ ∃ a b, V a ∧ V b ∧ a ≠ b :=
  ⟨_, segEnv_ord exSeg_valueSet _, 4096#64, 8192#64, .inl rfl, .inr (.inl rfl), by decide⟩

end WG.TTree
