import Verif.Serve.SearchSpec
import Verif.Records.Lemmas
import Verif.Attach.Lemmas
import Verif.Csv.Props

/-!
# The server: a request handles the records it asks for (C76)
-/
namespace WG.Serve
open WG.Csv (Str)
open WG.Recs
open Spec

variable {ι : Type}

theorem val_eq (s : Str) : Attach.value s = Csv.Spec.value s := by
  have key : ∀ (s : Str) (n : Nat), s.foldl (fun n c => 10 * n + (c.toNat - 48)) n = n * 10 ^ s.length + Csv.Spec.value s := by
    intro s
    induction s with
    | nil => intro n; simp [Csv.Spec.value]
    | cons c r ih =>
      intro n
      rw [List.foldl_cons, ih, Csv.Spec.value, List.length_cons, Nat.pow_succ, Nat.add_mul, ← Nat.add_assoc]
      congr 2
      rw [Nat.mul_comm 10 n, Nat.mul_assoc, Nat.mul_comm 10]
  have := key s 0
  rw [Nat.zero_mul, Nat.zero_add] at this
  exact this

theorem atoi_digits {n : Nat} (h : n < 2 ^ 31) {rest : Str} (hr : ∀ c r, rest = c :: r → Attach.isDigit c = false) : atoi (Json.digits n ++ rest) = n := by
  obtain ⟨h1, h2⟩ := Csv.digits_text n
  have h3 : Attach.value (Json.digits n) = n := by rw [val_eq, h2]
  have hd : Attach.Digits (Json.digits n) := ⟨h1.1, fun c hc => h1.2 c hc⟩
  unfold atoi
  rw [Attach.strtol_digits hd hr (by rw [h3]; omega), h3, Attach.toInt_id (by omega) (by omega)]

theorem from_is {p : Option Str} {f : Nat} (h : FromIs p f) : fromOf p = f := by
  rcases h with ⟨rfl, rfl⟩ | ⟨rfl, h⟩
  · rfl
  · have := atoi_digits h (rest := []) (by intro c r e; cases e)
    rw [List.append_nil] at this
    simp only [fromOf, this, toULong]
    omega

theorem count_is {op : Opcode} {p : Option Str} {c : Nat} (h : CountIs op p c) : countOf op p = c := by
  rcases h with ⟨rfl, rfl⟩ | ⟨rfl, h⟩
  · rfl
  · have := atoi_digits h (rest := []) (by intro c r e; cases e)
    rw [List.append_nil] at this
    simp only [countOf, this, toULong]
    omega

/-! ## Search and count -/

/-- What search and count do with a list of records. -/
def reads (op : Opcode) (P : List Word) (a : Acc ι) : Acc ι :=
  if op = .search then { a with shown := a.shown ++ P } else { a with handled := a.handled + P.length }

theorem reads_nil (op : Opcode) (a : Acc ι) : reads op [] a = a := by
  unfold reads; split <;> simp

theorem handle_reads {X : Ix ι} {op : Opcode} (h : op = .search ∨ op = .count) (r : Word) (P : List Word) (a : Acc ι) :
    ∃ b, handle X op r a = some b ∧ reads op P b = reads op (r :: P) a := by
  rcases h with rfl | rfl
  · exact ⟨_, rfl, by simp [reads]⟩
  · refine ⟨_, rfl, ?_⟩
    simp only [reads, reduceCtorEq, if_false, List.length_cons]
    congr 1; omega

theorem noDelete {X : Ix ι} {op : Opcode} (h : op = .search ∨ op = .count) (r : Word) (a : Acc ι) : scanDelete X op r a = some a := by
  unfold scanDelete; rw [if_neg (by rcases h with rfl | rfl <;> simp)]

theorem scan_reads {X : Ix ι} {op : Opcode} (h : op = .search ∨ op = .count) (f c : Nat) (L : List Word) (rc g : Nat) (a : Acc ι) (hg : g ≤ c) :
    scanLoop X op f c L rc g a = some (reads op (page (f - rc) (c - g) L) a) := by
  have hd : op ≠ .delete := by rcases h with rfl | rfl <;> simp
  induction L generalizing rc g a with
  | nil => simp [scanLoop, page, reads_nil]
  | cons r L ih =>
    rw [scanLoop]
    by_cases h1 : f ≤ rc
    · rw [if_pos h1]
      by_cases h2 : c < g + 1
      · rw [if_pos h2, show c - g = 0 by omega]; simp [page, reads_nil]
      · obtain ⟨b, e1, e2⟩ := handle_reads (X := X) h r (page (f - (rc + 1)) (c - (g + 1)) L) a
        rw [if_neg h2, if_neg hd, e1]
        simp only [Option.bind_some]
        rw [noDelete h]
        simp only [Option.bind_some]
        rw [ih _ _ _ (by omega), e2, show f - rc = 0 by omega, show f - (rc + 1) = 0 by omega, show c - g = (c - (g + 1)) + 1 by omega]
        simp [page]
    · rw [if_neg h1, noDelete h]
      simp only [Option.bind_some]
      rw [ih _ _ _ hg, show f - rc = (f - (rc + 1)) + 1 by omega]
      simp [page]

theorem fetch_reads {X : Ix ι} {op : Opcode} (h : op = .search ∨ op = .count) (f c : Nat) (L : List Word) (rc g : Nat) (a : Acc ι) (hg : g < c) :
    fetchLoop X op f c L rc g a = some (reads op (page (f - rc) (c - g) L) a) := by
  induction L generalizing rc g a with
  | nil => simp [fetchLoop, page, reads_nil]
  | cons r L ih =>
    rw [fetchLoop]
    by_cases h1 : f ≤ rc
    · obtain ⟨b, e1, e2⟩ := handle_reads (X := X) h r (page (f - (rc + 1)) (c - (g + 1)) L) a
      simp only [if_pos h1, e1, Option.bind_some]
      rw [show f - rc = 0 by omega, show c - g = (c - (g + 1)) + 1 by omega]
      rw [show f - (rc + 1) = 0 by omega] at e2
      have e3 : page 0 (c - (g + 1) + 1) (r :: L) = r :: page 0 (c - (g + 1)) L := by simp [page]
      rw [e3, ← e2]
      by_cases h2 : c ≤ g + 1
      · rw [if_pos h2, show c - (g + 1) = 0 by omega]; simp [page, reads_nil]
      · rw [if_neg h2, ih _ _ _ (by omega), show f - (rc + 1) = 0 by omega]
    · simp only [if_neg h1, Option.bind_some]
      rw [if_neg (by omega), ih _ _ _ hg, show f - rc = (f - (rc + 1)) + 1 by omega]
      simp [page]

/-- C76: a search without conditions shows the records from position `from` on, at most `count`, in their order, and changes nothing. -/
theorem C76_search_partial (X : Ix ι) (db : Db ι) (L : List Word) {frm cnt : Option Str} {f c : Nat} (hf : FromIs frm f) (hc : CountIs .search cnt c) :
    searchAll X .search frm cnt L db = some ⟨db, page f c L, 0⟩ := by
  unfold searchAll
  rw [from_is hf, count_is hc, scan_reads (Or.inl rfl) _ _ _ _ _ _ (Nat.zero_le _)]
  simp [reads]

/-- The same for a search with conditions, among the rows of the query. Partial: `count=0` shows a record (`C76_zero_counterexample`). -/
theorem C76_fields_partial (X : Ix ι) (db : Db ι) (L : List Word) {frm cnt : Option Str} {f c : Nat} (hf : FromIs frm f) (hc : CountIs .search cnt c) (h0 : 0 < c) :
    searchFields X .search frm cnt L db = some ⟨db, page f c L, 0⟩ := by
  unfold searchFields
  rw [from_is hf, count_is hc, fetch_reads (Or.inl rfl) _ _ _ _ _ _ h0]
  simp [reads]

/-- C76: a count is the number of records that a search with the same parameters asks for. -/
theorem C76_count_partial (X : Ix ι) (db : Db ι) (L : List Word) {frm cnt : Option Str} {f c : Nat} (hf : FromIs frm f) (hc : CountIs .count cnt c) :
    searchAll X .count frm cnt L db = some ⟨db, [], (page f c L).length⟩ ∧
    (0 < c → searchFields X .count frm cnt L db = some ⟨db, [], (page f c L).length⟩) := by
  constructor
  · unfold searchAll
    rw [from_is hf, count_is hc, scan_reads (Or.inr rfl) _ _ _ _ _ _ (Nat.zero_le _)]
    simp [reads]
  · intro h0
    unfold searchFields
    rw [from_is hf, count_is hc, fetch_reads (Or.inr rfl) _ _ _ _ _ _ h0]
    simp [reads]

/-! ## Record ids -/

theorem parse_ids (ns : List Nat) (h : ∀ n ∈ ns, 0 < n ∧ n < 2 ^ 31) (k x : Nat) (hk : (idsText ns).length ≤ k) (hx : x + ns.length < maxIds) :
    parseIds k (idsText ns) x = ns.map fun (n : Nat) => (n : Int) := by
  induction ns generalizing k x with
  | nil => cases k <;> simp [parseIds, idsText]
  | cons n t ih =>
    obtain ⟨⟨hne, hdig⟩, -⟩ := Csv.digits_text n
    have hn := h n (by simp)
    have hno : ∀ c ∈ Json.digits n, c ≠ (44#8 : Csv.Byte) := by
      intro c hc e; have := hdig c hc; subst e; obtain ⟨h1, _⟩ := this; revert h1; decide
    have hlen : 0 < (Json.digits n).length := List.length_pos_iff.2 hne
    have e0 : idsText (n :: t) = Json.digits n ++ (if t = [] then [] else 44#8 :: idsText t) := by
      cases t with
      | nil => simp [idsText]
      | cons m t => simp [idsText, List.intercalate, List.intersperse]
    have hdw : ∀ rest : Str, (Json.digits n ++ rest).dropWhile (fun b => decide (b ≠ 44#8)) = rest.dropWhile (fun b => decide (b ≠ 44#8)) := by
      intro rest
      rw [List.dropWhile_append_of_pos]
      intro c hc; simpa using hno c hc
    cases k with
    | zero => rw [e0] at hk; simp at hk; exact absurd hk.1 hne
    | succ k =>
      rw [e0, parseIds, if_neg (by simp [hne])]
      have ha : atoi (Json.digits n ++ (if t = [] then [] else 44#8 :: idsText t)) = n := by
        refine atoi_digits hn.2 ?_
        intro c r e
        split at e
        · cases e
        · cases e; decide
      have hl : (n :: t).length = t.length + 1 := rfl
      simp only [ha, hdw]
      rw [if_pos (by omega), if_neg (by unfold maxIds at *; omega)]
      have e1 : ((if t = [] then [] else 44#8 :: idsText t).dropWhile (fun b : Csv.Byte => decide (b ≠ 44#8))).drop 1 = idsText t := by
        by_cases ht : t = []
        · subst ht; simp [idsText]
        · rw [if_neg ht]; simp
      rw [e1, List.map_cons, ih (fun m hm => h m (by simp [hm])) k (x + 1) ?_ (by omega)]
      rw [e0] at hk
      by_cases ht : t = []
      · subst ht; simp [idsText]
      · rw [if_neg ht] at hk; simp at hk; omega

theorem ids_reads {X : Ix ι} {op : Opcode} (h : op = .search ∨ op = .count) (c : Nat) (ns : List Nat) (j g : Nat) (a : Acc ι) (hg : g ≤ c) (hj : j + ns.length < maxIds)
    (hl : ∀ n ∈ ns, isRecVal (BitVec.ofNat 64 n) = true ∧ ∃ fs, view a.db.h (BitVec.ofNat 64 n) = some fs ∧ fs ≠ []) :
    idsLoop X op c (ns.map fun (n : Nat) => (n : Int)) j g a = some (reads op ((ns.map (BitVec.ofNat 64)).take (c - g)) a) := by
  induction ns generalizing j g a with
  | nil => rw [List.map_nil, idsLoop, if_pos (by simpa using hj)]; simp [reads_nil]
  | cons n t ih =>
    obtain ⟨h1, fs, h2, h3⟩ := hl n (by simp)
    have hlen : ∃ x, Recs.recordLen a.db.h (BitVec.ofNat 64 n) = some x ∧ x ≠ 0 := by
      rw [recordLen_view, h2]; exact ⟨fs.length, rfl, by simpa using h3⟩
    obtain ⟨x, hx, hx0⟩ := hlen
    rw [List.map_cons, idsLoop]
    have ew : (BitVec.ofInt 64 ((n : Nat) : Int)) = BitVec.ofNat 64 n := by simp
    simp only [ew, if_pos h1, hx, Option.bind_some, if_neg hx0]
    by_cases hc : c < g + 1
    · rw [if_pos hc, show c - g = 0 by omega]; simp [reads_nil]
    · rw [if_neg hc]
      obtain ⟨b, e1, e2⟩ := handle_reads (X := X) h (BitVec.ofNat 64 n) ((t.map (BitVec.ofNat 64)).take (c - (g + 1))) a
      have eb : b.db = a.db := by rcases h with rfl | rfl <;> (simp only [handle, Option.some.injEq] at e1; rw [← e1])
      rw [e1]
      simp only [Option.bind_some]
      simp only [List.length_cons] at hj
      rw [ih _ _ _ (by omega) (by omega) (fun m hm => by rw [eb]; exact hl m (by simp [hm])), e2, List.map_cons, show c - g = (c - (g + 1)) + 1 by omega, List.take_succ_cons]

/-- C76: a search by record numbers shows the records with these numbers, at most `count`, in the order given; a count gives their number. Partial: there are fewer than 1000 numbers
(`C76_thousand_counterexample`), all of records that there are (`C76_forged_counterexample`) and that have fields. -/
theorem C76_ids_partial (X : Ix ι) (db : Db ι) (ns : List Nat) (hn : ∀ n ∈ ns, 0 < n ∧ n < 2 ^ 31) (h1 : ns.length < 1000)
    (hl : ∀ n ∈ ns, isRecVal (BitVec.ofNat 64 n) = true ∧ ∃ fs, view db.h (BitVec.ofNat 64 n) = some fs ∧ fs ≠ []) {cnt : Option Str} {c : Nat} :
    (CountIs .search cnt c → searchIds X .search (idsText ns) cnt db = some ⟨db, (ns.map (BitVec.ofNat 64)).take c, 0⟩) ∧
    (CountIs .count cnt c → searchIds X .count (idsText ns) cnt db = some ⟨db, [], min c ns.length⟩) := by
  constructor
  · intro hc
    unfold searchIds
    rw [count_is hc, parse_ids ns hn _ _ (Nat.le_refl _) (by unfold maxIds; omega), ids_reads (Or.inl rfl) _ _ _ _ _ (Nat.zero_le _) (by unfold maxIds; omega) hl]
    simp [reads]
  · intro hc
    unfold searchIds
    rw [count_is hc, parse_ids ns hn _ _ (Nat.le_refl _) (by unfold maxIds; omega), ids_reads (Or.inr rfl) _ _ _ _ _ (Nat.zero_le _) (by unfold maxIds; omega) hl]
    simp [reads]

end WG.Serve
