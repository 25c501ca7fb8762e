import Verif.Query.Choose
import Verif.TTree.Index
import Mathlib.Tactic.Set
/-!
# Lemmas on fetching rows
-/
namespace WG.Query
open WG.TTree
variable {κ : Type}

/-! ## Rows of a T-tree range -/

/-- The cursor runs over exactly these rows and stops. -/
inductive Ends (st : St κ) : Rng → List Nat → Prop
  | done {r : Rng} : r.co = 0 → Ends st r []
  | row {r : Rng} {rows : List Nat} : r.co ≠ 0 → Ends st (nextPos st r) rows → Ends st r (rowAt st r :: rows)

theorem ends_range (st : St κ) : ∀ (k : Nat) (r : Rng), (rangeRows st k r).length < k → Ends st r (rangeRows st k r) := by
  intro k
  induction k with
  | zero => intro r h; simp at h
  | succ k ih =>
    intro r h
    unfold rangeRows at h ⊢
    by_cases hc : r.co = 0
    · rw [if_pos hc]; exact .done hc
    · rw [if_neg hc] at h ⊢
      exact .row hc (ih _ (by simpa using h))

theorem ttreeFetch_res {db : DB κ} {st : St κ} {args : List (Arg κ)} {r : Rng} {rows : List Nat} (h : Ends st r rows) : ∀ k, rows.length < k →
    (rows.filter (fun x => checkArglist db x args) = [] ∧ (ttreeFetch db st args k r).1 = 0) ∨
    ∃ x rest, rows.filter (fun x => checkArglist db x args) = x :: rest.filter (fun x => checkArglist db x args) ∧ x ∈ rows ∧ rest.length < rows.length ∧ rest ⊆ rows ∧
      (ttreeFetch db st args k r).1 = x ∧ Ends st (ttreeFetch db st args k r).2 rest := by
  induction h with
  | done hc =>
    intro k hk
    cases k with
    | zero => simp at hk
    | succ k => exact .inl ⟨rfl, by simp [ttreeFetch, hc]⟩
  | @row r rows hc he ih =>
    intro k hk
    cases k with
    | zero => simp at hk
    | succ k =>
      unfold ttreeFetch
      rw [if_neg hc]
      by_cases hch : checkArglist db (rowAt st r) args
      · rw [if_pos hch]
        exact .inr ⟨rowAt st r, rows, by simp [hch], by simp, by simp, by simp, rfl, he⟩
      · rw [if_neg hch]
        have hf : (rowAt st r :: rows).filter (fun x => checkArglist db x args) = rows.filter (fun x => checkArglist db x args) := by simp [hch]
        rw [hf]
        rcases ih k (by simpa using hk) with ⟨h1, h2⟩ | ⟨x, rest, h1, h2, h3, h4, h5⟩
        · exact .inl ⟨h1, h2⟩
        · exact .inr ⟨x, rest, h1, by simp [h2], by simp; omega, fun y hy => by simp [h4 hy], h5⟩

theorem fetches_tree {db : DB κ} {k : Nat} : ∀ (n : Nat) {q : Query κ} {rows : List Nat}, rows.length ≤ n → q.qtype = .ttree → Ends q.st q.rng rows → rows.length < k → 0 ∉ rows →
    Fetches db k q (rows.filter (fun x => checkArglist db x q.args)) := by
  intro n
  induction n with
  | zero =>
    intro q rows hn hq he hk h0
    have : rows = [] := List.length_eq_zero_iff.1 (by omega)
    subst this
    rcases ttreeFetch_res (db := db) (args := q.args) he k hk with ⟨_, h2⟩ | ⟨x, rest, _, h2, _⟩
    · exact .done (by simp [fetch, hq, h2])
    · simp at h2
  | succ n ih =>
    intro q rows hn hq he hk h0
    rcases ttreeFetch_res (db := db) (args := q.args) he k hk with ⟨h1, h2⟩ | ⟨x, rest, h1, h2, h3, h4, h5, h6⟩
    · rw [h1]; exact .done (by simp [fetch, hq, h2])
    · rw [h1]
      have e1 : (fetch db k q).1 = x := by simp [fetch, hq, h5]
      rw [← e1]
      refine .row (by rw [e1]; rintro rfl; exact h0 h2) ?_
      have e2 : (fetch db k q).2 = { q with rng := (ttreeFetch db q.st q.args k q.rng).2 } := by simp [fetch, hq]
      rw [e2]
      exact ih (q := { q with rng := (ttreeFetch db q.st q.args k q.rng).2 }) (by omega) hq h6 (by omega) (fun h => h0 (h4 h))

/-! ## Full scan -/

theorem nextRec_eq {db : DB κ} {A B : List Nat} {x : Nat} (hr : db.recs = A ++ x :: B) (hn : db.recs.Nodup) : nextRec db x = B.headD 0 := by
  unfold nextRec
  have hx : x ∉ A := by
    rw [hr, List.nodup_append] at hn
    intro h
    exact hn.2.2 x h x (by simp) rfl
  have : db.recs.dropWhile (· ≠ x) = x :: B := by
    rw [hr]
    clear hr hn
    induction A with
    | nil => simp
    | cons y t ih =>
      have hy : y ≠ x := by rintro rfl; simp at hx
      rw [List.cons_append, List.dropWhile_cons_of_pos (by simpa using hy)]
      exact ih (by simp at hx; exact hx.2)
  rw [this]
  rfl

theorem scanFetch_res {db : DB κ} (hn : db.recs.Nodup) (hz : 0 ∉ db.recs) {args : List (Arg κ)} : ∀ (B A : List Nat) (k : Nat), db.recs = A ++ B → B.length < k →
    (B.filter (fun x => checkArglist db x args) = [] ∧ (scanFetch db args k (B.headD 0)).1 = 0) ∨
    ∃ x A' rest, B.filter (fun x => checkArglist db x args) = x :: rest.filter (fun x => checkArglist db x args) ∧ x ∈ B ∧ rest.length < B.length ∧ db.recs = A' ++ rest ∧
      (scanFetch db args k (B.headD 0)).1 = x ∧ (scanFetch db args k (B.headD 0)).2 = rest.headD 0 := by
  intro B
  induction B with
  | nil =>
    intro A k hr hk
    cases k with
    | zero => simp at hk
    | succ k => exact .inl ⟨rfl, by simp [scanFetch]⟩
  | cons x B ih =>
    intro A k hr hk
    cases k with
    | zero => simp at hk
    | succ k =>
      have hx : x ≠ 0 := by rintro rfl; exact hz (by rw [hr]; simp)
      have hr2 : db.recs = (A ++ [x]) ++ B := by rw [hr]; simp
      unfold scanFetch
      rw [List.headD_cons, if_neg hx, nextRec_eq hr hn]
      by_cases hch : checkArglist db x args
      · rw [if_pos hch]
        exact .inr ⟨x, A ++ [x], B, by simp [hch], by simp, by simp, hr2, rfl, rfl⟩
      · rw [if_neg hch]
        have hf : (x :: B).filter (fun x => checkArglist db x args) = B.filter (fun x => checkArglist db x args) := by simp [hch]
        rw [hf]
        rcases ih (A ++ [x]) k hr2 (by simpa using hk) with h | ⟨y, A', rest, h1, h2, h3, h4⟩
        · exact .inl h
        · exact .inr ⟨y, A', rest, h1, by simp [h2], by simp; omega, h4⟩

theorem fetches_scan {db : DB κ} (hn : db.recs.Nodup) (hz : 0 ∉ db.recs) {k : Nat} (hk : db.recs.length < k) : ∀ (n : Nat) {q : Query κ} {A B : List Nat}, B.length ≤ n → q.qtype = .scan →
    db.recs = A ++ B → q.curr = B.headD 0 → Fetches db k q (B.filter (fun x => checkArglist db x q.args)) := by
  intro n
  have hlen : ∀ {A B : List Nat}, db.recs = A ++ B → B.length < k := by
    intro A B h
    have := congrArg List.length h
    rw [List.length_append] at this
    omega
  induction n with
  | zero =>
    intro q A B hl hq hr hc
    have : B = [] := List.length_eq_zero_iff.1 (by omega)
    subst this
    rcases scanFetch_res hn hz (args := q.args) _ A k hr (hlen hr) with ⟨_, h2⟩ | ⟨x, A', rest, _, h2, _⟩
    · exact .done (by simp only [fetch, hq, hc, h2])
    · simp at h2
  | succ n ih =>
    intro q A B hl hq hr hc
    rcases scanFetch_res hn hz (args := q.args) _ A k hr (hlen hr) with ⟨h1, h2⟩ | ⟨x, A', rest, h1, h2, h3, h4, h5, h6⟩
    · rw [h1]; exact .done (by simp only [fetch, hq, hc, h2])
    · rw [h1]
      have e1 : (fetch db k q).1 = x := by simp only [fetch, hq, hc, h5]
      rw [← e1]
      refine .row (by rw [e1]; rintro rfl; exact hz (by rw [hr]; simp [h2])) ?_
      have e2 : (fetch db k q).2 = { q with curr := rest.headD 0 } := by simp only [fetch, hq, hc, h6]
      rw [e2]
      exact ih (q := { q with curr := rest.headD 0 }) (by omega) hq h4 rfl

/-! ## Prefetched rows -/

/-- Pages in which the rows `rows` and then zeroes remain to be read from slot `i` of the first one. -/
theorem fetches_pages {db : DB κ} {k : Nat} : ∀ (rows : List Nat) {q : Query κ} {z : Nat}, q.qtype = .prefetch → (∀ p ∈ q.pages, p.length = pageSize) → q.pidx < pageSize →
    q.pages.flatten.drop q.pidx = rows ++ List.replicate z 0 → 0 ∉ rows → Fetches db k q rows := by
  intro rows
  induction rows with
  | nil =>
    intro q z hq hp hi hf _
    refine .done ?_
    simp only [fetch, hq, prefetchFetch]
    cases hpg : q.pages with
    | nil => rfl
    | cons p ps =>
      have hl := hp p (by simp [hpg])
      rw [hpg, List.flatten_cons, List.drop_append_of_le_length (by omega)] at hf
      have hg : p[q.pidx]? = some (p[q.pidx]'(by omega)) := List.getElem?_eq_getElem (by omega)
      have h0 : p[q.pidx]'(by omega) = 0 := by
        rw [List.drop_eq_getElem_cons (by omega)] at hf
        have : p[q.pidx]'(by omega) ∈ ([] ++ List.replicate z 0 : List Nat) := by rw [← hf]; exact List.mem_append_left _ List.mem_cons_self
        simp at this
        exact this.2
      have h1 : p.getD q.pidx 0 = 0 := by rw [List.getD_eq_getElem?_getD, hg, h0]; rfl
      simp only [h1, if_true]
  | cons x rows ih =>
    intro q z hq hp hi hf h0
    have hx : x ≠ 0 := by rintro rfl; simp at h0
    cases hpg : q.pages with
    | nil => rw [hpg] at hf; simp at hf
    | cons p ps =>
      have hl := hp p (by simp [hpg])
      rw [hpg, List.flatten_cons, List.drop_append_of_le_length (by omega), List.drop_eq_getElem_cons (by omega)] at hf
      simp only [List.cons_append, List.cons.injEq] at hf
      obtain ⟨hx1, hf⟩ := hf
      have h1 : p.getD q.pidx 0 = x := by rw [List.getD_eq_getElem?_getD, List.getElem?_eq_getElem (by omega), hx1]; rfl
      have e : fetch db k q = if q.pidx + 1 ≥ pageSize then (x, { q with pages := ps, pidx := 0 }) else (x, { q with pidx := q.pidx + 1 }) := by
        simp only [fetch, hq, prefetchFetch, hpg, h1, if_neg hx]
      have e1 : (fetch db k q).1 = x := by rw [e]; split <;> rfl
      have h2 : Fetches db k (fetch db k q).2 rows := by
        rw [e]
        by_cases hg : q.pidx + 1 ≥ pageSize
        · rw [if_pos hg]
          refine ih (z := z) hq (fun p' hp' => hp p' (by simp [hpg, hp'])) (by simp [pageSize]) ?_ (fun h => h0 (by simp [h]))
          rw [List.drop_zero]
          rw [List.drop_eq_nil_of_le (by omega), List.nil_append] at hf
          exact hf
        · rw [if_neg hg]
          refine ih (z := z) hq hp (by simpa using hg) ?_ (fun h => h0 (by simp [h]))
          simp only []
          rw [hpg, List.flatten_cons, List.drop_append_of_le_length (by omega)]
          exact hf
      have := Fetches.row (by rw [e1]; exact hx) h2
      rwa [e1] at this

/-- Pages that hold the rows `done`, with `i` slots of the last one used. -/
structure Filled (pages : List (List Nat)) (i : Nat) (done : List Nat) : Prop where
  size : ∀ p ∈ pages, p.length = pageSize
  le : i ≤ pageSize
  rows : pages.flatten = done ++ List.replicate (pageSize - i) 0

theorem filled_add {pages : List (List Nat)} {i : Nat} {done : List Nat} (h : Filled pages i done) (hi : i < pageSize) (x : Nat) :
    Filled (pages.dropLast ++ [(pages.getLastD []).set i x]) (i + 1) (done ++ [x]) := by
  obtain ⟨h1, h2, h3⟩ := h
  rcases List.eq_nil_or_concat pages with rfl | ⟨A, p, rfl⟩
  · have := congrArg List.length h3
    simp at this
    omega
  · rw [List.concat_eq_append] at *
    have hp : p.length = pageSize := h1 p (by simp)
    rw [List.dropLast_concat]
    have hl : (A ++ [p]).getLastD [] = p := by simp [List.getLastD_eq_getLast?]
    rw [hl]
    rw [List.flatten_append, List.flatten_singleton] at h3
    have hlen := congrArg List.length h3
    rw [List.length_append, List.length_append, List.length_replicate] at hlen
    rcases List.append_eq_append_iff.1 h3 with ⟨d, rfl, e⟩ | ⟨d, e, e2⟩
    · rw [List.length_append] at hlen
      have hd : d.length = i := by omega
      refine ⟨?_, by omega, ?_⟩
      · intro q hq
        rcases List.mem_append.1 hq with hq | hq
        · exact h1 q (by simp [hq])
        · simp at hq; subst hq; simpa using hp
      · rw [List.flatten_append, List.flatten_singleton, List.append_assoc, List.append_assoc]
        congr 1
        rw [e, List.set_append_right i x (by omega), hd, Nat.sub_self]
        congr 1
        obtain ⟨w, hw⟩ : ∃ w, pageSize - i = w + 1 := ⟨pageSize - i - 1, by omega⟩
        rw [hw, List.replicate_succ, List.set_cons_zero, show pageSize - (i + 1) = w by omega]
        rfl
    · have := congrArg List.length e2
      rw [List.length_append, List.length_replicate] at this
      have hd : d.length = 0 ∧ i = 0 := by omega
      obtain ⟨hd, rfl⟩ := hd
      have : d = [] := List.length_eq_zero_iff.1 hd
      subst this
      rw [List.append_nil] at e
      rw [List.nil_append] at e2
      refine ⟨?_, by omega, ?_⟩
      · intro q hq
        rcases List.mem_append.1 hq with hq | hq
        · exact h1 q (by simp [hq])
        · simp at hq; subst hq; simpa using hp
      · rw [List.flatten_append, List.flatten_singleton, e, ← e2, List.append_assoc]
        congr 1
        
theorem prefetch_res {db : DB κ} {k limit : Nat} : ∀ (rows : List Nat) (n : Nat) {q : Query κ} {pages : List (List Nat)} {i : Nat} {done : List Nat}, Fetches db k q rows → rows.length < n →
    Filled pages i done → (limit ≠ 0 → done.length < limit) →
    ∃ q' pages' i' , prefetchLoop db k limit n q pages i done.length = (q', pages', (if limit = 0 then done ++ rows else (done ++ rows).take limit).length) ∧
      Filled pages' i' (if limit = 0 then done ++ rows else (done ++ rows).take limit) := by
  intro rows
  induction rows with
  | nil =>
    intro n q pages i done hf hn hfil hlim
    cases n with
    | zero => simp at hn
    | succ n =>
      have h0 : (fetch db k q).1 = 0 := by cases hf; assumption
      have e : (if limit = 0 then done ++ [] else (done ++ []).take limit) = done := by
        rw [List.append_nil]
        split_ifs with h
        · rfl
        · exact List.take_of_length_le (by have := hlim h; omega)
      rw [e]
      exact ⟨_, _, i, by unfold prefetchLoop; rw [if_pos h0], hfil⟩
  | cons x rows ih =>
    intro n q pages i done hf hn hfil hlim
    cases n with
    | zero => simp at hn
    | succ n =>
      obtain ⟨h0, h1, h2⟩ : (fetch db k q).1 ≠ 0 ∧ (fetch db k q).1 = x ∧ Fetches db k (fetch db k q).2 rows := by
        generalize hg : x :: rows = l at hf
        cases hf with
        | done _ => cases hg
        | row a b => cases hg; exact ⟨a, rfl, b⟩
      unfold prefetchLoop
      simp only []
      rw [if_neg h0]
      obtain ⟨pg, j, e, hj, hfil2⟩ : ∃ pg j, (if i ≥ pageSize then (pages ++ [List.replicate pageSize 0], 0) else (pages, i)) = (pg, j) ∧ j < pageSize ∧ Filled pg j done := by
        by_cases hi : i ≥ pageSize
        · refine ⟨_, _, if_pos hi, by simp [pageSize], ?_, by omega, ?_⟩
          · intro p hp
            rcases List.mem_append.1 hp with hp | hp
            · exact hfil.size p hp
            · simp at hp; subst hp; simp
          · have := hfil.le
            rw [List.flatten_append, hfil.rows, show pageSize - i = 0 by omega]
            simp
        · exact ⟨_, _, if_neg hi, by omega, hfil⟩
      rw [e]
      simp only []
      rw [h1]
      have hfil3 := filled_add hfil2 hj x
      have hlen : done.length + 1 = (done ++ [x]).length := by simp
      have happ : done ++ x :: rows = (done ++ [x]) ++ rows := by simp
      by_cases hl : limit ≠ 0 ∧ done.length + 1 ≥ limit
      · rw [if_pos hl]
        have hd := hlim hl.1
        have et : (if limit = 0 then done ++ x :: rows else (done ++ x :: rows).take limit) = done ++ [x] := by
          rw [if_neg hl.1, happ, List.take_append_of_le_length (by simp; omega), List.take_of_length_le (by simp; omega)]
        rw [et]
        exact ⟨_, _, _, by rw [hlen], hfil3⟩
      · rw [if_neg hl, hlen, happ]
        exact ih n h2 (by simp at hn; omega) hfil3 (fun h => by
          have : ¬ done.length + 1 ≥ limit := fun h' => hl ⟨h, h'⟩
          rw [← hlen]; omega)

/-- Rows fetched are never NULL. -/
theorem Fetches.nz {db : DB κ} {k : Nat} {q : Query κ} {rows : List Nat} (h : Fetches db k q rows) : 0 ∉ rows := by
  induction h with
  | done _ => simp
  | row a _ ih => simp only [List.mem_cons, not_or]; exact ⟨fun h => a h.symm, ih⟩

end WG.Query
