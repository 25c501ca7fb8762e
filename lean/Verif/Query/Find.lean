import Verif.Query.Plain
/-!
# Lemmas on wg_find_record
-/
namespace WG.Query
open WG.TTree
variable {κ : Type}

/-- The element after `x` in a list, 0 at the end. -/
def after (l : List Nat) (x : Nat) : Nat := (l.dropWhile (· ≠ x)).tail.headD 0

theorem after_eq {l A B : List Nat} {x : Nat} (hl : l = A ++ x :: B) (hn : l.Nodup) : after l x = B.headD 0 := by
  unfold after
  have hx : x ∉ A := by
    rw [hl, List.nodup_append] at hn
    intro h
    exact hn.2.2 x h x (by simp) rfl
  have : l.dropWhile (· ≠ x) = x :: B := by
    rw [hl]
    clear hl hn
    induction A with
    | nil => simp
    | cons y t ih =>
      have hy : y ≠ x := by rintro rfl; simp at hx
      rw [List.cons_append, List.dropWhile_cons_of_pos (by simpa using hy)]
      exact ih (by simp at hx; exact hx.2)
  rw [this]
  rfl

theorem findTree_res {st : St κ} {last : Nat} {r : Rng} {rows : List Nat} (h : Ends st r rows) : ∀ (k prev : Nat), rows.length < k → findTree st last k prev r = after (prev :: rows) last := by
  induction h with
  | done hc =>
    intro k prev hk
    cases k with
    | zero => simp at hk
    | succ k =>
      unfold findTree after
      rw [if_pos hc]
      by_cases hp : prev = last
      · simp [hp]
      · simp [List.dropWhile, hp]
  | @row r rows hc _ ih =>
    intro k prev hk
    cases k with
    | zero => simp at hk
    | succ k =>
      unfold findTree
      rw [if_neg hc]
      by_cases hp : prev = last
      · rw [if_pos hp]
        simp [after, hp]
      · rw [if_neg hp, ih k _ (by simpa using hk)]
        unfold after
        rw [List.dropWhile_cons_of_pos (a := prev) (by simpa using hp)]

theorem findScan_res {db : DB κ} (hn : db.recs.Nodup) (hz : 0 ∉ db.recs) (a : Arg κ) : ∀ (B A : List Nat) (k : Nat), db.recs = A ++ B → B.length < k →
    (B.filter (fun x => checkArglist db x [a]) = [] ∧ findScan db a k (B.headD 0) = 0) ∨
    ∃ x A' rest, B.filter (fun x => checkArglist db x [a]) = x :: rest.filter (fun x => checkArglist db x [a]) ∧ x ∈ B ∧ rest.length < B.length ∧ db.recs = A' ++ x :: rest ∧
      findScan db a k (B.headD 0) = x := by
  intro B
  induction B with
  | nil =>
    intro A k hr hk
    cases k with
    | zero => simp at hk
    | succ k => exact .inl ⟨rfl, by simp [findScan]⟩
  | cons x B ih =>
    intro A k hr hk
    cases k with
    | zero => simp at hk
    | succ k =>
      have hx : x ≠ 0 := by rintro rfl; exact hz (by rw [hr]; simp)
      have hr2 : db.recs = (A ++ [x]) ++ B := by rw [hr]; simp
      unfold findScan
      rw [List.headD_cons, if_neg hx, nextRec_eq hr hn]
      by_cases hch : checkArglist db x [a]
      · rw [if_pos hch]
        exact .inr ⟨x, A, B, by simp [hch], by simp, by simp, hr, rfl⟩
      · rw [if_neg hch]
        have hf : (x :: B).filter (fun x => checkArglist db x [a]) = B.filter (fun x => checkArglist db x [a]) := by simp [hch]
        rw [hf]
        rcases ih (A ++ [x]) k hr2 (by simpa using hk) with h | ⟨y, A', rest, h1, h2, h3, h4⟩
        · exact .inl h
        · exact .inr ⟨y, A', rest, h1, by simp [h2], by simp; omega, h4⟩

variable [DecidableEq κ]

theorem finds_scan {db : DB κ} (hn : db.recs.Nodup) (hz : 0 ∉ db.recs) {k col : Nat} {c : Cond} {v : κ} (hk : db.recs.length < k)
    (hno : (if c = .notEqual then none else columnIndex db col) = none) : ∀ (n : Nat) (A B : List Nat) (last : Nat), B.length ≤ n → db.recs = A ++ B →
    (if last ≠ 0 then nextRec db last else firstRec db) = B.headD 0 → Finds db k col c v last (B.filter (fun x => checkArglist db x [⟨col, c, v⟩])) := by
  have hlen : ∀ {A B : List Nat}, db.recs = A ++ B → B.length < k := by
    intro A B h
    have := congrArg List.length h
    rw [List.length_append] at this
    omega
  have e : ∀ last, findRecord db k col c v last = findScan db ⟨col, c, v⟩ k (if last ≠ 0 then nextRec db last else firstRec db) := by
    intro last
    unfold findRecord
    rw [hno]
  intro n
  induction n with
  | zero =>
    intro A B last hl hr hc
    have : B = [] := List.length_eq_zero_iff.1 (by omega)
    subst this
    refine .done ?_
    rw [e, hc]
    rcases findScan_res hn hz ⟨col, c, v⟩ [] A k hr (hlen hr) with ⟨_, h⟩ | ⟨x, _, _, _, h, _⟩
    · exact h
    · simp at h
  | succ n ih =>
    intro A B last hl hr hc
    rcases findScan_res hn hz ⟨col, c, v⟩ B A k hr (hlen hr) with ⟨h1, h2⟩ | ⟨x, A', rest, h1, h2, h3, h4, h5⟩
    · rw [h1]; exact .done (by rw [e, hc, h2])
    · rw [h1]
      have e1 : findRecord db k col c v last = x := by rw [e, hc, h5]
      have hx : x ≠ 0 := by rintro rfl; exact hz (by rw [h4]; simp)
      rw [← e1]
      refine .row (by rw [e1]; exact hx) ?_
      rw [e1]
      refine ih (A' ++ [x]) rest x (by omega) (by rw [h4]; simp) ?_
      rw [if_pos hx, nextRec_eq h4 hn]

theorem finds_tree {db : DB κ} {k col : Nat} {c : Cond} {v : κ} {rows : List Nat} (hn : (0 :: rows).Nodup) (h : ∀ last, findRecord db k col c v last = after (0 :: rows) last) :
    ∀ (B A : List Nat) (last : Nat), 0 :: rows = A ++ last :: B → Finds db k col c v last B := by
  intro B
  induction B with
  | nil =>
    intro A last hr
    exact .done (by rw [h, after_eq hr hn]; rfl)
  | cons x B ih =>
    intro A last hr
    have e : findRecord db k col c v last = x := by rw [h, after_eq hr hn]; rfl
    have hx : x ≠ 0 := by
      rintro rfl
      cases A with
      | nil => simp at hr; rw [hr.2] at hn; simp at hn
      | cons y A =>
        simp only [List.cons_append, List.cons.injEq] at hr
        rw [hr.2] at hn
        simp at hn
    have h2 := ih (A ++ [last]) x (by rw [hr]; simp)
    have := Finds.row (db := db) (k := k) (col := col) (c := c) (v := v) (last := last) (rows := B) (by rw [e]; exact hx) (by rw [e]; exact h2)
    rwa [e] at this

theorem findRecord_res {db : DB κ} {P : κ → Prop} (hw : WF db P) {k col : Nat} {c : Cond} {v : κ} (hc : c ≠ .other) (hv : P v) (hk : fuel db.recs.length ≤ k) :
    ∃ rows, Finds db k col c v 0 rows ∧ rows.Nodup ∧ ∀ r, r ∈ rows ↔ r ∈ db.recs ∧ Sat db r ⟨col, c, v⟩ := by
  classical
  have hkr : db.recs.length < k := by unfold fuel at hk; omega
  cases hci : (if c = .notEqual then none else columnIndex db col) with
  | none =>
    refine ⟨_, finds_scan hw.nodup hw.nz hkr hci db.recs.length [] db.recs 0 (Nat.le_refl _) rfl rfl, hw.nodup.filter _, fun r => ?_⟩
    rw [List.mem_filter, check_iff]
    simp
  | some ix =>
    have hne : c ≠ .notEqual := by rintro rfl; simp at hci
    have hci2 := hci
    rw [if_neg hne] at hci2
    unfold columnIndex at hci2
    split_ifs at hci2
    have hix := List.mem_of_find?_eq_some hci2
    have h2 := List.find?_some hci2
    simp only [Bool.and_eq_true, Option.isNone_iff_eq_none] at h2
    obtain ⟨htt, htm⟩ := h2
    obtain ⟨l, hh, hnd, hl⟩ := hw.index col ix hix htt
    obtain ⟨O, l', hi, hpm⟩ := hist_index hh
    have hl' : ∀ r, r ∈ l' ↔ r ∈ db.recs ∧ col < db.len r := fun r => by rw [hpm.mem_iff, hl]; simp [htm]
    have hlen : l'.length ≤ db.recs.length := by
      exact ((List.subperm_of_subset (hpm.nodup_iff.2 hnd) fun r hr => ((hl' r).1 hr).1)).length_le
    have hvi : v ≠ db.ill := by
      rintro rfl
      have O0 := hw.ord 0
      exact O0.ill hv (by have := O0.swap hv hv; revert this; simp only [DB.env]; cases db.cmp db.ill db.ill <;> simp)
    have main : ∀ sb eb si ei, findArgs db c v = some (sb, eb, si, ei) → (sb = db.ill ∨ P sb) → (eb = db.ill ∨ P eb) →
        (∀ x ∈ l', Below (db.env col) sb si x → Within (db.env col) eb ei x) →
        (∀ r ∈ l', (LowOk db sb si (db.fld r col) ∧ HighOk db eb ei (db.fld r col)) ↔ Sat db r ⟨col, c, v⟩) →
        ∃ rows, Finds db k col c v 0 rows ∧ rows.Nodup ∧ ∀ r, r ∈ rows ↔ r ∈ db.recs ∧ Sat db r ⟨col, c, v⟩ := by
      intro sb eb si ei hfa h1 h2 hle hsat
      obtain ⟨rg, hfb, hrr⟩ := findBounds_res O hi (i1 := si) (i2 := ei) h1 h2 (k := k) (by unfold fuel at hk ⊢; omega) hle
      have hrl : (rangeRows ix.st k rg).length < k := by
        rw [hrr]
        exact Nat.lt_of_le_of_lt (List.length_filter_le _ _) (by omega)
      have hends := ends_range ix.st k rg hrl
      have hmem : ∀ r, r ∈ rangeRows ix.st k rg ↔ r ∈ l' ∧ LowOk db sb si (db.fld r col) ∧ HighOk db eb ei (db.fld r col) := by
        intro r
        rw [hrr, List.mem_filter, Bool.and_eq_true, decide_eq_true_iff, decide_eq_true_iff, below_iff, within_iff]
      have hnz : 0 ∉ rangeRows ix.st k rg := fun h => hw.nz ((hl' 0).1 ((hmem 0).1 h).1).1
      have hnd2 : (rangeRows ix.st k rg).Nodup := by rw [hrr]; exact (hpm.nodup_iff.2 hnd).filter _
      refine ⟨rangeRows ix.st k rg, finds_tree (rows := rangeRows ix.st k rg) (List.nodup_cons.2 ⟨hnz, hnd2⟩) ?_ _ [] 0 rfl, hnd2, fun r => ?_⟩
      · intro last
        unfold findRecord
        rw [hci]
        simp only [hfa, hfb]
        exact findTree_res hends k 0 hrl
      · rw [hmem]
        constructor
        · rintro ⟨hm, h⟩
          exact ⟨((hl' r).1 hm).1, (hsat r hm).1 h⟩
        · rintro ⟨hr, hs⟩
          have hm := (hl' r).2 ⟨hr, hs.1⟩
          exact ⟨hm, (hsat r hm).2 hs⟩
    have hlc : ∀ r ∈ l', col < db.len r := fun r hr => ((hl' r).1 hr).2
    cases hcd : c with
    | notEqual => exact absurd hcd hne
    | other => exact absurd hcd hc
    | equal =>
      rw [← hcd]
      refine main v v true true (by rw [hcd]; rfl) (.inr hv) (.inr hv) ?_ ?_
      · intro x _ hb
        exact .inr (by have := hb.2; simp only [if_true] at this ⊢; rw [this]; simp)
      · intro r hr
        have := hlc r hr
        simp only [LowOk, HighOk, Sat, hcd, ne_eq, hvi, not_false_eq_true, forall_const, if_true, this, true_and]
        cases db.cmp (db.fld r col) v <;> simp
    | lessThan =>
      rw [← hcd]
      refine main db.ill v true false (by rw [hcd]; rfl) (.inl rfl) (.inr hv) (fun x _ hb => absurd rfl hb.1) ?_
      intro r hr
      have := hlc r hr
      simp [LowOk, HighOk, Sat, hcd, hvi, this]
    | greater =>
      rw [← hcd]
      refine main v db.ill false true (by rw [hcd]; rfl) (.inr hv) (.inl rfl) (fun x _ _ => .inl rfl) ?_
      intro r hr
      have := hlc r hr
      simp [LowOk, HighOk, Sat, hcd, hvi, this]
    | ltEqual =>
      rw [← hcd]
      refine main db.ill v true true (by rw [hcd]; rfl) (.inl rfl) (.inr hv) (fun x _ hb => absurd rfl hb.1) ?_
      intro r hr
      have := hlc r hr
      simp [LowOk, HighOk, Sat, hcd, hvi, this]
    | gtEqual =>
      rw [← hcd]
      refine main v db.ill true true (by rw [hcd]; rfl) (.inr hv) (.inl rfl) (fun x _ _ => .inl rfl) ?_
      intro r hr
      have := hlc r hr
      simp [LowOk, HighOk, Sat, hcd, hvi, this]

end WG.Query
