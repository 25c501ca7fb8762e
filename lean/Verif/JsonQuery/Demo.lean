import Verif.JsonQuery.Props
import Verif.IndexMaint.Counter
/-!
# Document queries: concrete cases and counterexamples
-/
namespace WG.JsonQuery
open WG.Recs WG.TTree

/-- Values 5 and 7. -/
abbrev five : Word := small 5
abbrev seven : Word := small 7
/-- All allocations succeed. -/
def allMem : JMem := ⟨true, true, fun _ => ⟨true, true, fun _ => true⟩⟩

/-! A T-tree index on column 1; a record with three fields, plain or a document (an array); 5 and 7 in its fields 1 and 2. -/
def bitsOf (d : Bool) : Word := if d then 0x50#64 else 0#64
def q1 : ISt := after k0 (.index 1 0#64 [] 100)
def q2 (d : Bool) : ISt := after q1 (.api (.create 3 (bitsOf d) (some 8#64)))
def q3 (d : Bool) : ISt := after (q2 d) (.api (.set 8#64 1 five none))
def q4 (d : Bool) : ISt := after (q3 d) (.api (.set 8#64 2 seven none))

theorem reach_q1 : IReach True q1 := reach_k0.after ⟨rfl, Or.inl rfl, List.nodup_nil, (fun r => by simp [k0, Heap.empty]), by decide⟩
theorem reach_q2 (d : Bool) : IReach True (q2 d) := reach_q1.after ⟨rfl, by rintro o ⟨rfl⟩; exact ⟨by decide +kernel, by decide⟩⟩

theorem recs_q2 (d : Bool) : (q2 d).db.h.recs = upd (fun _ => none) 8#64 (some ⟨bitsOf d, 0#64, [0#64, 0#64, 0#64]⟩) := by cases d <;> rfl
theorem recs_q3 (d : Bool) : (q3 d).db.h.recs = upd (fun _ => none) 8#64 (some ⟨bitsOf d, 0#64, [0#64, five, 0#64]⟩) := by
  have : (q3 d).db.h.recs = upd (q2 d).db.h.recs 8#64 (some ⟨bitsOf d, 0#64, [0#64, five, 0#64]⟩) := by cases d <;> rfl
  rw [this, recs_q2]; funext p; simp only [upd]; split_ifs <;> rfl
theorem recs_q4 (d : Bool) : (q4 d).db.h.recs = upd (fun _ => none) 8#64 (some ⟨bitsOf d, 0#64, [0#64, five, seven]⟩) := by
  have : (q4 d).db.h.recs = upd (q3 d).db.h.recs 8#64 (some ⟨bitsOf d, 0#64, [0#64, five, seven]⟩) := by cases d <;> rfl
  rw [this, recs_q3]; funext p; simp only [upd]; split_ifs <;> rfl

/-- The only record has three fields, none of which is a record. -/
theorem alone3 {T : Table} {a b c : Word} (hT : ∀ p, T p = if p = 8#64 then some [a, b, c] else none) {w : Word} (h : w ≠ a ∧ w ≠ b ∧ w ≠ c) (p : Word) (i : Nat) :
    T.field p i ≠ some w := by
  simp only [Table.field, hT]
  split_ifs
  · match i with
    | 0 => simpa using h.1.symm
    | 1 => simpa using h.2.1.symm
    | 2 => simpa using h.2.2.symm
    | n + 3 => simp
  · simp

theorem reach_q3 (d : Bool) : IReach True (q3 d) := by
  have hv : ∀ p, view (q2 d).db.h p = if p = 8#64 then some [0#64, 0#64, 0#64] else none := by
    intro p; simp only [view, recs_q2, upd]; split_ifs <;> rfl
  refine (reach_q2 d).after ⟨by cases d <;> rfl, by cases d <;> decide +kernel, ⟨_, by rw [recs_q2]; rfl⟩, sok_small _ 5, ?_, ?_, good_small _ (by decide) (by decide), simple_alone (alone3 hv (by decide)), simple_alone ?_⟩
  · intro e; exact absurd e (by decide)
  · intro rc h1 h2
    rw [recs_q2] at h1; cases h1
    exact absurd h2 (by cases d <;> decide)
  · refine alone3 (a := 0#64) (b := five) (c := 0#64) (fun p => ?_) (by decide)
    simp only [Table.store, hv]
    split_ifs with h1 <;> simp_all

theorem reach_q4 (d : Bool) : IReach True (q4 d) := by
  have hv : ∀ p, view (q3 d).db.h p = if p = 8#64 then some [0#64, five, 0#64] else none := by
    intro p; simp only [view, recs_q3, upd]; split_ifs <;> rfl
  refine (reach_q3 d).after ⟨by cases d <;> rfl, by cases d <;> decide +kernel, ⟨_, by rw [recs_q3]; rfl⟩, sok_small _ 7, ?_, ?_, good_small _ (by decide) (by decide), simple_alone (alone3 hv (by decide)), simple_alone ?_⟩
  · intro e; exact absurd e (by decide)
  · intro rc h1 h2
    rw [recs_q3] at h1; cases h1
    exact absurd h2 (by cases d <;> decide)
  · refine alone3 (a := 0#64) (b := five) (c := seven) (fun p => ?_) (by decide)
    simp only [Table.store, hv]
    split_ifs with h1 <;> simp_all

theorem single {rows : List Nat} {n : Nat} (h3 : rows.Nodup) (hm : ∀ x, x ∈ rows ↔ x = n) : rows = [n] := by
  match rows, h3, hm with
  | [], _, hm => exact absurd ((hm n).2 rfl) (by simp)
  | [a], _, hm => rw [(hm a).1 (by simp)]
  | a :: b :: l, h3, hm =>
    exfalso
    have e1 := (hm a).1 (by simp)
    have e2 := (hm b).1 (by simp)
    simp [e1, e2] at h3

/-- C53 counterexample: an array is not a set of key-value pairs, yet an array with 5 and 7 as its second and third elements is found by a query for key 5 with value 7. -/
theorem C53_array_counterexample : IReach True (q4 true) ∧ (q4 true).pend = none ∧
    (∀ r rc, (q4 true).db.h.recs r = some rc → isArray rc = true ∧ ∀ w ∈ rc.fields, isRecVal w = false) ∧
    ∃ q, makeJsonQuery (q4 true).db.h (sources (q4 true).db.h [8#64] none false none) allMem id [(five, seven)] = some (some q) ∧ ∀ db k, Query.Fetches db k q [8] := by
  have hrec : ∀ r rc, (q4 true).db.h.recs r = some rc → r = 8#64 ∧ rc = ⟨0x50#64, 0#64, [0#64, five, seven]⟩ := by
    intro r rc h
    rw [recs_q4] at h
    simp only [upd] at h
    split_ifs at h with h1
    cases h
    exact ⟨h1, rfl⟩
  have h8 : (q4 true).db.h.recs 8#64 = some ⟨0x50#64, 0#64, [0#64, five, seven]⟩ := by rw [recs_q4]; rfl
  have hv8 : view (q4 true).db.h 8#64 = some [0#64, five, seven] := by simp [view, h8]
  have hdoc : ∀ d, IsDocument (q4 true).db.h d ↔ d = 8#64 := fun d => ⟨fun ⟨rc, h1, _⟩ => (hrec d rc h1).1, fun h => by subst h; exact ⟨_, h8, by decide⟩⟩
  have href : ∀ p i x, RefersAt (view (q4 true).db.h) p i x → x = 0#64 ∨ x = five ∨ x = seven := by
    rintro p i x ⟨fs, e1, e2⟩
    cases hp : (q4 true).db.h.recs p with
    | none => simp [view, hp] at e1
    | some rc =>
      obtain ⟨_, rfl⟩ := hrec p rc hp
      simp [view, hp] at e1
      subst e1
      have := List.mem_of_getElem? e2
      simpa using this
  have hlink : ∀ x n, Links (view (q4 true).db.h) 8#64 x n → x = 8#64 ∧ n = 0 := by
    intro x n hl
    induction hl with
    | here => exact ⟨rfl, rfl⟩
    | step _ h1 h2 h3 ih =>
      obtain ⟨k, hk⟩ := refersAt_of_mem h1 h2
      rcases href _ _ _ hk with rfl | rfl | rfl <;> exact absurd h3 (by decide)
  have hD : DocsOk (q4 true).db.h [(five, seven)] := by
    refine ⟨fun d hd => ?_, fun d r n hd hl => ?_, fun d r hd hb => ?_, fun a ha r hr hp => ?_⟩
    · rw [hdoc] at hd; subst hd
      refine ⟨fun p i h => ?_, fun x hx p i q j h1 h2 => ?_⟩
      · rcases href p i _ h with c | c | c <;> exact absurd c (by decide)
      · obtain ⟨n, hn⟩ := hx
        obtain ⟨rfl, _⟩ := hlink _ _ hn
        rcases href p i _ h1 with c | c | c <;> exact absurd c (by decide)
    · rw [hdoc] at hd; subst hd
      have := (hlink _ _ hl).2; omega
    · rw [hdoc] at hd; subst hd
      obtain ⟨n, hn⟩ := hb
      rw [(hlink _ _ hn).1]
      exact ⟨_, h8, by decide⟩
    · obtain ⟨rc, h1, _⟩ := hr
      obtain ⟨rfl, _⟩ := hrec r rc h1
      exact ⟨8#64, (hdoc _).2 rfl, 0, .here⟩
  have hc : Contains (q4 true).db.h 8#64 five seven := ⟨8#64, ⟨0, .here⟩, [0#64, five, seven], five, seven, hv8, rfl, rfl, by decide +kernel, .inl (by decide +kernel)⟩
  refine ⟨reach_q4 true, rfl, ?_, ?_⟩
  · intro r rc h
    obtain ⟨_, rfl⟩ := hrec r rc h
    refine ⟨by decide, fun w hw => ?_⟩
    simp at hw
    rcases hw with rfl | rfl | rfl <;> decide
  · have hA : ∀ a ∈ [(five, seven)], Val (q4 true).db.h a.1 ∧ True ∧ True ∧ isRecVal a.1 = false := by
      intro a ha
      simp at ha; subst ha
      have hk := ireach_inv (reach_q4 true)
      exact ⟨field_val hk.inv.str hk.good (p := 8#64) (c := 1) (by simp [Table.field, hv8]), trivial, trivial, by decide⟩
    rcases C53_with_indexes_partial (V := fun _ => True) (T := none) (e := none) (rs := [8#64]) (reach_q4 true) rfl hD
      (fun r => ⟨fun h => by rw [List.mem_singleton.1 h]; exact ⟨_, h8, by decide⟩, fun ⟨rc, h1, _⟩ => List.mem_singleton.2 (hrec r rc h1).1⟩) (by intro t ht; cases ht)
      (by intro i hi; cases hi) false hA (by simp) allMem id with ⟨_, h2⟩ | ⟨q, rows, h1, h2, _, h3, h4⟩
    · refine absurd ⟨rfl, fun _ => rfl, fun _ => rfl, fun _ _ => rfl, by unfold maxRows; decide, ?_, ?_⟩ h2
      · intro f hf; cases hf
      · intro f hf; cases hf
    · rw [single h3 (fun x => (h4 x).trans ⟨fun ⟨d, h5, h6, _⟩ => by rw [(hdoc d).1 h5] at h6; exact h6.symm, fun h => ⟨8#64, (hdoc _).2 rfl, h.symm, by simpa using hc⟩⟩)] at h2
      exact ⟨q, h1, h2⟩

/-- C53 counterexample: a plain record that has the key and the value in fields 1 and 2 and belongs to no document makes the query fail, although memory is sufficient. -/
theorem C53_plain_record_counterexample : IReach True (q4 false) ∧ (q4 false).pend = none ∧ Enough allMem (sources (q4 false).db.h [8#64] none false none) [(five, seven)] ∧
    makeJsonQuery (q4 false).db.h (sources (q4 false).db.h [8#64] none false none) allMem id [(five, seven)] = some none := by
  refine ⟨reach_q4 false, rfl, ⟨rfl, fun _ => rfl, fun _ => rfl, fun _ _ => rfl, by unfold maxRows; decide, ?_, ?_⟩, ?_⟩
  · intro f hf; cases hf
  · intro f hf; cases hf
  · have h8 : (q4 false).db.h.recs 8#64 = some ⟨0#64, 0#64, [0#64, five, seven]⟩ := by rw [recs_q4]; rfl
    have hf : findDocument (q4 false).db.h 8#64 = some none := by decide +kernel
    have hv : valueMatch (q4 false).db.h seven seven = some true := by decide +kernel
    have hc : WG_COMPARE (q4 false).db.h.reader five five = 0 := by decide +kernel
    have hm : ∀ set, mergeKv (q4 false).db.h (allMem.set 0) (five, seven) set 8#64 = some (-1, set) := by
      intro set
      simp [mergeKv, h8, hc, hv, addDoc, hf]
    simp [makeJsonQuery, prepare, clauses, clause, sources, allMem, ResultSet.create, collect, step]
    simp [allMem] at hm
    simp [hm]

/-! The record becomes part of a document: an object (16) with the record as its only field. -/
def q5 : ISt := after (q4 false) (.api (.create 1 0x30 (some 16#64)))
def q6 : ISt := after q5 (.api (.set 16#64 0 8#64 (some 48#64)))

theorem reach_q5 : IReach True q5 := (reach_q4 false).after ⟨rfl, by rintro o ⟨rfl⟩; exact ⟨by decide +kernel, by decide⟩⟩

theorem recs_q5 : q5.db.h.recs = upd (q4 false).db.h.recs 16#64 (some ⟨0x30#64, 0#64, [0#64]⟩) := by rfl
theorem recs_q6 : q6.db.h.recs = upd (upd q5.db.h.recs 16#64 (some ⟨0x30#64, 0#64, [8#64]⟩)) 8#64 (some ⟨0#64, 48#64, [0#64, five, seven]⟩) := by rfl

theorem view_q5 : view q5.db.h = fun p => if p = 16#64 then some [0#64] else if p = 8#64 then some [0#64, five, seven] else none := by
  funext p
  simp only [view, recs_q5, recs_q4, upd]
  split_ifs <;> rfl

theorem view_q6 : view q6.db.h = fun p => if p = 8#64 then some [0#64, five, seven] else if p = 16#64 then some [8#64] else none := by
  funext p
  simp only [view, recs_q6, recs_q5, recs_q4, upd]
  split_ifs <;> rfl

theorem reach_q6 : IReach True q6 := by
  have hno : ∀ p c, (view q5.db.h).field p c ≠ some 16#64 := by
    intro p c
    rw [view_q5]
    simp only [Table.field]
    split_ifs
    · match c with
      | 0 => decide
      | n + 1 => simp
    · match c with
      | 0 => decide
      | 1 => decide
      | 2 => decide
      | n + 3 => simp
    · simp
  refine reach_q5.after ⟨rfl, by decide +kernel, ⟨_, by rfl⟩, sok_rec (rc := ⟨0#64, 0#64, [0#64, five, seven]⟩) (by decide) (by decide +kernel), ?_, ?_,
    ⟨⟨.record 8#64, by unfold Datum.Valid Aligned; decide, by decide⟩, fun hf => absurd hf (by decide)⟩, simple_alone hno, simple_alone ?_⟩
  · intro _; exact ⟨48#64, rfl, by decide +kernel, by decide⟩
  · intro rc h1 h2
    have : q5.db.h.recs 16#64 = some ⟨0x30#64, 0#64, [0#64]⟩ := by decide +kernel
    rw [this] at h1; cases h1
    exact absurd h2 (by decide)
  · intro p c
    have : (view q5.db.h).store 16#64 0 8#64 = view q6.db.h := by
      rw [view_q5, view_q6]
      funext p
      simp only [Table.store]
      split_ifs <;> first | rfl | simp_all
    show ((view q5.db.h).store 16#64 0 8#64).field p c ≠ some 16#64
    rw [this, view_q6]
    simp only [Table.field]
    split_ifs
    · match c with
      | 0 => decide
      | 1 => decide
      | 2 => decide
      | n + 3 => simp
    · match c with
      | 0 => decide
      | n + 1 => simp
    · simp

theorem refers_q6 {p x : Word} {i : Nat} (h : RefersAt (view q6.db.h) p i x) : (p = 16#64 ∧ i = 0 ∧ x = 8#64) ∨ x = 0#64 ∨ x = five ∨ x = seven := by
  obtain ⟨fs, e1, e2⟩ := h
  rw [view_q6] at e1
  dsimp only at e1
  split_ifs at e1 with h1 h2
  · cases e1
    match i with
    | 0 => simp at e2; exact .inr (.inl e2.symm)
    | 1 => simp at e2; exact .inr (.inr (.inl e2.symm))
    | 2 => simp at e2; exact .inr (.inr (.inr e2.symm))
    | n + 3 => simp at e2
  · cases e1
    match i with
    | 0 => simp at e2; exact .inl ⟨h2, rfl, e2.symm⟩
    | n + 1 => simp at e2

theorem links_q6 {x : Word} {n : Nat} (h : Links (view q6.db.h) 16#64 x n) : (x = 16#64 ∧ n = 0) ∨ (x = 8#64 ∧ n = 1) := by
  induction h with
  | here => exact Or.inl ⟨rfl, rfl⟩
  | step _ h1 h2 h3 ih =>
    obtain ⟨k, hk⟩ := refersAt_of_mem h1 h2
    rcases refers_q6 hk with ⟨a, _, c⟩ | rfl | rfl | rfl
    · subst a
      rcases ih with ⟨_, rfl⟩ | ⟨e, _⟩
      · exact Or.inr ⟨c, rfl⟩
      · exact absurd e (by decide)
    all_goals exact absurd h3 (by decide)

theorem data_q6 (r : Word) : Data q6.db.h r ↔ r = 8#64 ∨ r = 16#64 := by
  unfold Data
  rw [recs_q6, recs_q5, recs_q4]
  simp only [upd]
  constructor
  · rintro ⟨rc, h, _⟩
    split_ifs at h with h1 h2
    · exact .inl h1
    · exact .inr h2
  · rintro (rfl | rfl)
    · exact ⟨_, rfl, by decide⟩
    · exact ⟨⟨0x30#64, 0#64, [8#64]⟩, by simp, by decide⟩

theorem doc_q6 {d : Word} : IsDocument q6.db.h d ↔ d = 16#64 := by
  unfold IsDocument
  rw [recs_q6, recs_q5, recs_q4]
  simp only [upd]
  constructor
  · rintro ⟨rc, h, h'⟩
    split_ifs at h with h1 h2
    · cases h; exact absurd h' (by decide)
    · exact h2
  · rintro rfl
    exact ⟨⟨0x30#64, 0#64, [8#64]⟩, by simp, by decide⟩

theorem docsOk_q6 : DocsOk q6.db.h [(five, seven)] := by
  refine ⟨fun d hd => ?_, fun d r n hd hl => ?_, fun d r hd hb => ?_, fun a ha r hr hp => ?_⟩
  · rw [doc_q6] at hd; subst hd
    refine ⟨fun p i h => ?_, fun x hx p i q j h1 h2 => ?_⟩
    · rcases refers_q6 h with ⟨_, _, c⟩ | c | c | c <;> exact absurd c (by decide)
    · obtain ⟨n, hn⟩ := hx
      have hx0 : x = 16#64 ∨ x = 8#64 := by rcases links_q6 hn with ⟨rfl, _⟩ | ⟨rfl, _⟩ <;> simp
      rcases refers_q6 h1 with ⟨a, b, _⟩ | rfl | rfl | rfl
      · rcases refers_q6 h2 with ⟨c, d, _⟩ | rfl | rfl | rfl
        · exact ⟨a.trans c.symm, b.trans d.symm⟩
        all_goals exact absurd hx0 (by decide)
      all_goals exact absurd hx0 (by decide)
  · rw [doc_q6] at hd; subst hd
    rcases links_q6 hl with ⟨_, rfl⟩ | ⟨_, rfl⟩ <;> omega
  · rw [doc_q6] at hd; subst hd
    obtain ⟨n, hn⟩ := hb
    rw [data_q6]
    rcases links_q6 hn with ⟨rfl, _⟩ | ⟨rfl, _⟩ <;> simp
  · refine ⟨16#64, doc_q6.2 rfl, ?_⟩
    rcases (data_q6 r).1 hr with rfl | rfl
    · exact ⟨1, .step .here (by rw [view_q6]; rfl) (by simp) (by decide)⟩
    · exact ⟨0, .here⟩

/-- The hash table of the JSON index. -/
def tab : HashIndex.Table := (HashIndex.addRow (hashEnv q6.db.h) true (HashIndex.Table.empty 31) 8#64 [five, seven]).1

/-- The values of this database. -/
def V6 (w : Word) : Prop := w = 0#64 ∨ w = five ∨ w = seven ∨ w = 8#64

theorem val_q6 {w : Word} (hw : V6 w) : Val q6.db.h w := by
  have hk := ireach_inv reach_q6
  have this : ∀ {p : Word} {c : Nat}, (view q6.db.h).field p c = some w → Val q6.db.h w := fun hf => field_val hk.inv.str hk.good hf
  rcases hw with rfl | rfl | rfl | rfl
  · exact this (p := 8#64) (c := 0) (by rw [view_q6]; rfl)
  · exact this (p := 8#64) (c := 1) (by rw [view_q6]; rfl)
  · exact this (p := 8#64) (c := 2) (by rw [view_q6]; rfl)
  · exact this (p := 16#64) (c := 0) (by rw [view_q6]; rfl)

theorem hashOk_q6 : HashOk q6.db.h V6 tab := by
  have hk := ireach_inv reach_q6
  have hV := val_ordered hk.inv.str hk.good
  have hfields : ∀ r rc w, q6.db.h.recs r = some rc → w ∈ rc.fields → V6 w := by
    intro r rc w h1 h2
    rw [recs_q6, recs_q5, recs_q4] at h1
    simp only [upd] at h1
    split_ifs at h1
    · cases h1; simp at h2; rcases h2 with rfl | rfl | rfl <;> simp [V6]
    · cases h1; simp at h2; subst h2; simp [V6]
  have hrow : ∀ r rc f1 f2, q6.db.h.recs r = some rc → rc.special = false → rc.fields[1]? = some f1 → rc.fields[2]? = some f2 → r = 8#64 ∧ f1 = five ∧ f2 = seven := by
    intro r rc f1 f2 h1 _ h3 h4
    rw [recs_q6, recs_q5, recs_q4] at h1
    simp only [upd] at h1
    split_ifs at h1 with h5
    · cases h1; simp at h3 h4; exact ⟨h5, h3.symm, h4.symm⟩
    · cases h1; simp at h4
  have hB : HashIndex.Hashable (hashEnv q6.db.h) true [five, seven] := by
    intro v hv x hx
    simp at hv
    rcases hv with rfl | rfl
    · have : HashIndex.valuesOf (hashEnv q6.db.h) true five = [five] := by decide +kernel
      rw [this] at hx; rw [List.mem_singleton.1 hx]; decide +kernel
    · have : HashIndex.valuesOf (hashEnv q6.db.h) true seven = [seven] := by decide +kernel
      rw [this] at hx; rw [List.mem_singleton.1 hx]; decide +kernel
  refine ⟨⟨_, HashIndex.Hist.add (hashEnv q6.db.h) 8#64 [five, seven] (.init 31) (by simp) hB, fun r ks => ?_⟩, hfields, ⟨⟨?_, ?_, ?_, ?_, ?_, ?_, ?_⟩, ?_, ?_, ?_, ?_, ?_⟩, ?_, ?_, ?_⟩
  · simp only [List.mem_singleton, Prod.mk.injEq]
    constructor
    · rintro ⟨rfl, rfl⟩
      exact ⟨⟨0#64, 48#64, [0#64, five, seven]⟩, five, seven, by decide +kernel, by decide, rfl, rfl, rfl⟩
    · rintro ⟨rc, f1, f2, h1, h2, h3, h4, rfl⟩
      obtain ⟨rfl, rfl, rfl⟩ := hrow r rc f1 f2 h1 h2 h3 h4
      exact ⟨rfl, rfl⟩
  · exact fun w hw => hV.typ w (val_q6 hw)
  · exact fun a b t ha hb => hV.imm a b t (val_q6 ha) (val_q6 hb)
  · exact fun w hw => hV.noNaN w (val_q6 hw)
  · exact fun w hw => hV.lang w (val_q6 hw)
  · exact fun w hw => hV.blob w (val_q6 hw)
  · exact fun w hw => hV.len w (val_q6 hw)
  · intro w hw ht f hf
    rcases hw with rfl | rfl | rfl | rfl
    · exact absurd (typ_isRecVal.1 ht) (by decide)
    · exact absurd (typ_isRecVal.1 ht) (by decide)
    · exact absurd (typ_isRecVal.1 ht) (by decide)
    · have : q6.db.h.reader.fields 8#64 = [0#64, five, seven] := by decide +kernel
      rw [this] at hf
      simp at hf
      rcases hf with rfl | rfl | rfl <;> simp [V6]
  · rintro w (rfl | rfl | rfl | rfl) <;> decide +kernel
  · rintro w (rfl | rfl | rfl | rfl) <;> decide +kernel
  · rintro w (rfl | rfl | rfl | rfl) <;> decide +kernel
  · rintro w (rfl | rfl | rfl | rfl) <;> decide +kernel
  · rintro w (rfl | rfl | rfl | rfl) h <;> exact absurd h (by decide +kernel)
  · rintro w (rfl | rfl | rfl | rfl) h
    · exact ⟨by decide +kernel, by decide +kernel, by decide +kernel⟩
    · exact ⟨by decide +kernel, by decide +kernel, by decide +kernel⟩
    · exact ⟨by decide +kernel, by decide +kernel, by decide +kernel⟩
    · exact absurd h (by decide)
  · intro r rc f1 f2 h1 h2 h3 h4
    obtain ⟨rfl, rfl, rfl⟩ := hrow r rc f1 f2 h1 h2 h3 h4
    exact hB
  · intro r rc f1 h1 _ h3
    rw [recs_q6, recs_q5, recs_q4] at h1
    simp only [upd] at h1
    split_ifs at h1
    · cases h1; simp at h3; subst h3; decide +kernel
    · cases h1; simp at h3

/-- The hypotheses of `C53_with_indexes_partial` are met, with both indexes. -/
example : ∃ q rows, makeJsonQuery q6.db.h (sources q6.db.h [8#64, 16#64] (some tab) false q6.db.ix.head?) allMem id [(five, seven)] = some (some q) ∧
    (∀ db k, Query.Fetches db k q rows) ∧ rows = [16] := by
  have hc : Contains q6.db.h 16#64 five seven :=
    ⟨8#64, ⟨1, .step .here (by rw [view_q6]; rfl) (by simp) (by decide)⟩, [0#64, five, seven], five, seven, by rw [view_q6]; rfl, rfl, rfl, by decide +kernel, .inl (by decide +kernel)⟩
  have hA : ∀ a ∈ [(five, seven)], Val q6.db.h a.1 ∧ V6 a.1 ∧ V6 a.2 ∧ isRecVal a.1 = false := by
    intro a ha
    simp at ha; subst ha
    exact ⟨val_q6 (.inr (.inl rfl)), .inr (.inl rfl), .inr (.inr (.inl rfl)), by decide⟩
  have hX : ∀ i, q6.db.ix.head? = some i → i ∈ q6.db.ix ∧ i.col = 1 ∧ i.mrec = 0#64 := by
    intro i hi
    have : i ∈ q6.db.ix := List.mem_of_mem_head? hi
    have h2 : ∀ i ∈ q6.db.ix, i.col = 1 ∧ i.mrec = 0#64 := by decide +kernel
    exact ⟨this, h2 i this⟩
  rcases C53_with_indexes_partial (rs := [8#64, 16#64]) reach_q6 rfl docsOk_q6 (fun r => by rw [data_q6]; simp) (V := V6) (T := some tab) (fun t ht => by cases ht; exact hashOk_q6)
    (e := q6.db.ix.head?) hX false hA (by simp) allMem id with ⟨_, h2⟩ | ⟨q, rows, h1, h2, _, h3, h4⟩
  · refine absurd ⟨rfl, fun _ => rfl, fun _ => rfl, fun _ _ => rfl, by unfold maxRows; decide, ?_, ?_⟩ h2
    · intro f hf a ha
      cases hf
      simp at ha; subst ha
      have : (hashRows q6.db.h tab five seven).length = 1 := by decide +kernel
      show (hashRows q6.db.h tab five seven).length ≤ _
      rw [this]; unfold maxRows; omega
    · intro f hf a ha
      simp at ha; subst ha
      obtain ⟨i, hi, rfl⟩ := Option.map_eq_some_iff.1 (show q6.db.ix.head?.map (fun e => keyRows q6.db.h e.st treeFuel) = some f from hf)
      have h3 : ∀ i ∈ q6.db.ix, (keyRows q6.db.h i.st treeFuel five).length = 1 := by decide +kernel
      show (keyRows q6.db.h i.st treeFuel five).length ≤ _
      rw [h3 i (List.mem_of_mem_head? hi)]; unfold maxRows; omega
  · refine ⟨q, rows, h1, h2, ?_⟩
    have hm : ∀ x, x ∈ rows ↔ x = 16 := by
      intro x
      rw [h4]
      constructor
      · rintro ⟨d, h5, h6, _⟩
        rw [doc_q6] at h5; subst h5; exact h6.symm
      · rintro rfl
        exact ⟨16#64, doc_q6.2 rfl, rfl, by simpa using hc⟩
    exact single h3 hm

end WG.JsonQuery
