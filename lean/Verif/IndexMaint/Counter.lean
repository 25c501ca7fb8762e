import Verif.IndexMaint.Props
import Verif.Records.Demo
/-!
# Index maintenance: a concrete history, and histories after which an index is wrong
-/
namespace WG.Recs
open WG.TTree

variable {C : Prop}

/-- The state after a call. -/
def after (s : ISt) (op : IOp) : ISt := ((irun s op).getD (s, .code 0)).1
def outOf (s : ISt) (op : IOp) : Option Out := (irun s op).map (·.2)
/-- The rows of the indexes. -/
def rowsOf (s : ISt) : List (List Nat) := s.db.ix.map fun e => walk e.st 20 e.st.minN
def small (n : Nat) : Word := encodeSmallint (BitVec.ofNat 64 n)

theorem IReach.after {s : ISt} (hs : IReach C s) {op : IOp} (hp : IPre C s op) : IReach C (after s op) := by
  obtain ⟨s', out, e, h1, _⟩ := C28_calls_succeed_partial hs hp
  simp only [WG.Recs.after, e, Option.getD_some]
  exact h1

theorem sok_small (h : Heap) (n : Nat) : SOK h (small n) := by
  have hk : kind (small n) = .imm := kind_small _
  refine ⟨by rw [LiveS, hk]; trivial, ?_, ?_⟩
  · intro hr; rw [kind_imm_rec hk] at hr; cases hr
  · rintro (k | k | k) <;> rw [hk] at k <;> cases k

theorem good_small (h : Heap) {n : Nat} (hn : -2 ^ 60 ≤ (BitVec.ofNat 64 n).toInt ∧ (BitVec.ofNat 64 n).toInt < 2 ^ 60) (hd : isFulldouble (small n) = false) : Good h (small n) := by
  refine ⟨⟨.int _, hn, rfl⟩, fun hf => by rw [hd] at hf; cases hf⟩

/-- Nothing refers to the record. -/
theorem simple_alone {T : Table} {x : List Idx} {r : Word} {i : Nat} (hn : ∀ p c, T.field p c ≠ some r) : Simple T x r i :=
  ⟨fun p c d A B _ hl => absurd hl (no_leads hn _), fun e _ _ A _ hl => absurd hl (no_leads hn _)⟩

/-- One field refers to the record, and nothing to the record with that field. -/
theorem leads_one {T : Table} {r q : Word} {c : Nat} (h1 : ∀ p d, T.field p d = some r → p = q ∧ d = c) (h2 : ∀ p d, T.field p d ≠ some q) :
    ∀ L, Leads T r L → L = [(q, c)]
  | [], h => h.elim
  | [(p, d)], h => by obtain ⟨rfl, rfl⟩ := h1 p d h; rfl
  | (p, d) :: (p', d') :: t, h => by
    have := leads_one h1 h2 _ h.2
    simp only [List.cons.injEq, Prod.mk.injEq] at this
    obtain ⟨⟨rfl, rfl⟩, _⟩ := this
    exact absurd h.1 (h2 p d)

theorem simple_one {T : Table} {x : List Idx} {r q : Word} {c i : Nat} (h1 : ∀ p d, T.field p d = some r → p = q ∧ d = c) (h2 : ∀ p d, T.field p d ≠ some q)
    (hq : q ≠ r) : Simple T x r i := by
  refine ⟨fun p c' d A B _ hA hB _ _ _ => ?_, fun e _ _ A _ hl => ?_⟩
  · have a := leads_one h1 h2 _ hA
    have b := leads_one h1 h2 _ hB
    rw [← b] at a
    simpa using a
  · have := leads_one h1 h2 _ hl
    simp only [List.cons.injEq, Prod.mk.injEq] at this
    exact hq this.1.1.symm

/-! ### A history with an index on column 0, an index on column 1 of the records with 5 in column 0, and a nested record -/

def k0 : ISt := ⟨⟨Heap.empty 10000, []⟩, [], none⟩
def k1 : ISt := after k0 (.template [small 5] (some 16#64))
def k2 : ISt := after k1 (.index 1 16#64 [] 100)
def k3 : ISt := after k2 (.index 0 0#64 [] 100)
def k4 : ISt := after k3 (.api (.create 2 0 (some 8#64)))
def k5 : ISt := after k4 (.api (.set 8#64 0 (small 5) none))
def k6 : ISt := after k5 (.api (.create 1 0 (some 24#64)))
def k7 : ISt := after k6 (.api (.set 24#64 0 8#64 (some 48#64)))
def k8 : ISt := after k7 (.api (.set 8#64 1 (small 7) none))

theorem reach_k0 : IReach True k0 := .init 10000

theorem vals_small (h : Heap) (n : Nat) (hn : -2 ^ 60 ≤ (BitVec.ofNat 64 n).toInt ∧ (BitVec.ofNat 64 n).toInt < 2 ^ 60) (hd : isFulldouble (small n) = false) : Vals h [small n] := by
  refine ⟨fun v hv => ?_, List.pairwise_singleton _ _⟩
  rw [List.mem_singleton.1 hv]
  exact ⟨sok_small h n, good_small h hn hd⟩

theorem reach_k1 : IReach True k1 := reach_k0.after ⟨rfl, vals_small _ 5 (by decide) (by decide), (by rintro o ⟨rfl⟩; exact ⟨rfl, by decide⟩), (fun e he => by cases he)⟩

theorem recs_k1 : k1.db.h.recs = upd (fun _ => none) 16#64 (some ⟨3#64, 0#64, [small 5]⟩) := by
  have : k1.db.h.recs = upd (upd (upd (fun _ => none) 16#64 (some ⟨0#64, 0#64, [0#64]⟩)) 16#64 (some ⟨0#64, 0#64, [small 5]⟩)) 16#64 (some ⟨3#64, 0#64, [small 5]⟩) := by rfl
  rw [this]
  funext p
  simp only [upd]; split_ifs <;> rfl

theorem scan_k1 (r : Word) : r ∈ ([] : List Word) ↔ ∃ rc, k1.db.h.recs r = some rc ∧ rc.special = false := by
  rw [recs_k1]
  simp only [List.not_mem_nil, false_iff, upd]
  rintro ⟨rc, h1, h2⟩
  split_ifs at h1
  cases h1; exact absurd h2 (by decide)

theorem reach_k2 : IReach True k2 := reach_k1.after ⟨rfl, Or.inr (by decide +kernel), List.nodup_nil, scan_k1, by decide⟩
theorem reach_k3 : IReach True k3 := reach_k2.after ⟨rfl, Or.inl rfl, List.nodup_nil, scan_k1, by decide⟩
theorem reach_k4 : IReach True k4 := reach_k3.after ⟨rfl, by rintro o ⟨rfl⟩; exact ⟨by decide +kernel, by decide⟩⟩

theorem recs_k4 : k4.db.h.recs = upd k1.db.h.recs 8#64 (some ⟨0#64, 0#64, [0#64, 0#64]⟩) := by rfl

theorem view_k4 : view k4.db.h = fun p => if p = 8#64 then some [0#64, 0#64] else if p = 16#64 then some [small 5] else none := by
  funext p
  simp only [view, recs_k4, recs_k1, upd]
  split_ifs <;> rfl

theorem alone_k4 (p : Word) (c : Nat) : (view k4.db.h).field p c ≠ some 8#64 := by
  rw [view_k4]
  simp only [Table.field]
  split_ifs
  · match c with
    | 0 => decide
    | 1 => decide
    | n + 2 => simp
  · match c with
    | 0 => decide
    | n + 1 => simp
  · simp

theorem reach_k5 : IReach True k5 := by
  refine reach_k4.after ⟨rfl, by decide +kernel, ⟨_, by rfl⟩, sok_small _ 5, ?_, ?_, good_small _ (by decide) (by decide), simple_alone alone_k4, simple_alone ?_⟩
  · intro e; exact absurd e (by decide)
  · intro rc h1 h2
    have : k4.db.h.recs 8#64 = some ⟨0#64, 0#64, [0#64, 0#64]⟩ := by decide +kernel
    rw [this] at h1; cases h1
    exact absurd h2 (by decide)
  · intro p c
    rw [view_k4]
    simp only [Table.field, Table.store]
    split_ifs with h1 h2
    · match c with
      | 0 => decide
      | 1 => decide
      | n + 2 => simp
    · match c with
      | 0 => decide
      | n + 1 => simp
    · simp

theorem recs_k5 : k5.db.h.recs = upd k4.db.h.recs 8#64 (some ⟨0#64, 0#64, [small 5, 0#64]⟩) := by rfl

theorem reach_k6 : IReach True k6 := reach_k5.after ⟨rfl, by rintro o ⟨rfl⟩; exact ⟨by decide +kernel, by decide⟩⟩

theorem view_k6 : view k6.db.h = fun p => if p = 24#64 then some [0#64] else if p = 8#64 then some [small 5, 0#64] else if p = 16#64 then some [small 5] else none := by
  have : k6.db.h.recs = upd k5.db.h.recs 24#64 (some ⟨0#64, 0#64, [0#64]⟩) := by rfl
  funext p
  simp only [view, this, recs_k5, recs_k4, recs_k1, upd]
  split_ifs <;> rfl

theorem alone_k6 (w : Word) (hw : w = 24#64 ∨ w = 8#64) (p : Word) (c : Nat) : (view k6.db.h).field p c ≠ some w := by
  rw [view_k6]
  simp only [Table.field]
  split_ifs
  · match c with
    | 0 => rcases hw with rfl | rfl <;> decide
    | n + 1 => simp
  · match c with
    | 0 => rcases hw with rfl | rfl <;> decide
    | 1 => rcases hw with rfl | rfl <;> decide
    | n + 2 => simp
  · match c with
    | 0 => rcases hw with rfl | rfl <;> decide
    | n + 1 => simp
  · simp

theorem store_k6 (p : Word) (c : Nat) (w : Word) (hf : ((view k6.db.h).store 24#64 0 8#64).field p c = some w) (hw : w = 24#64 ∨ w = 8#64) :
    p = 24#64 ∧ c = 0 ∧ w = 8#64 := by
  by_cases h1 : p = 24#64 ∧ c = 0
  · obtain ⟨rfl, rfl⟩ := h1
    rw [view_k6] at hf
    simp [Table.field, Table.store] at hf
    exact ⟨rfl, rfl, hf.symm⟩
  · exfalso
    have : ((view k6.db.h).store 24#64 0 8#64).field p c = (view k6.db.h).field p c := by
      simp only [Table.field, Table.store]
      split_ifs with hp
      · subst hp
        have hc : c ≠ 0 := fun hc => h1 ⟨rfl, hc⟩
        cases view k6.db.h 24#64 with
        | none => rfl
        | some fs => simp [List.getElem?_set, Ne.symm hc]
      · rfl
    rw [this] at hf
    exact alone_k6 w hw p c hf

theorem reach_k7 : IReach True k7 := by
  refine reach_k6.after ⟨rfl, by decide +kernel, ⟨_, by rfl⟩, sok_rec (rc := ⟨0#64, 0#64, [small 5, 0#64]⟩) (by decide) (by decide +kernel), ?_, ?_,
    ⟨⟨.record 8#64, by unfold Datum.Valid Aligned; decide, by decide⟩, fun hf => absurd hf (by decide)⟩, simple_alone (alone_k6 _ (Or.inl rfl)), simple_alone ?_⟩
  · intro _; exact ⟨48#64, rfl, by decide +kernel, by decide⟩
  · intro rc h1 h2
    have : k6.db.h.recs 24#64 = some ⟨0#64, 0#64, [0#64]⟩ := by decide +kernel
    rw [this] at h1; cases h1
    exact absurd h2 (by decide)
  · intro p c hf
    exact absurd (store_k6 p c _ hf (Or.inl rfl)).2.2 (by decide)

theorem view_k7 : view k7.db.h = (view k6.db.h).store 24#64 0 8#64 := by
  have h6 : k6.db.h.recs = upd k5.db.h.recs 24#64 (some ⟨0#64, 0#64, [0#64]⟩) := by rfl
  have : k7.db.h.recs = upd (upd k6.db.h.recs 24#64 (some ⟨0#64, 0#64, [8#64]⟩)) 8#64 (some ⟨0#64, 48#64, [small 5, 0#64]⟩) := by rfl
  rw [view_k6]
  funext p
  simp only [view, this, h6, recs_k5, recs_k4, recs_k1, upd, Table.store]
  split_ifs <;> first | rfl | simp_all

theorem reach_k8 : IReach True k8 := by
  refine reach_k7.after ⟨rfl, by decide +kernel, ⟨_, by rfl⟩, sok_small _ 7, ?_, ?_, good_small _ (by decide) (by decide), ?_, ?_⟩
  · intro e; exact absurd e (by decide)
  · intro rc h1 h2
    have : k7.db.h.recs 8#64 = some ⟨0#64, 48#64, [small 5, 0#64]⟩ := by decide +kernel
    rw [this] at h1; cases h1
    exact absurd h2 (by decide)
  · rw [view_k7]
    refine simple_one (q := 24#64) (c := 0) (fun p d hf => ?_) (fun p d hf => ?_) (by decide)
    · obtain ⟨a, b, _⟩ := store_k6 p d _ hf (Or.inr rfl); exact ⟨a, b⟩
    · exact absurd (store_k6 p d _ hf (Or.inl rfl)).2.2 (by decide)
  · rw [view_k7]
    have hst : ∀ p d w, (((view k6.db.h).store 24#64 0 8#64).store 8#64 1 (small 7)).field p d = some w → (w = 24#64 ∨ w = 8#64) →
        ((view k6.db.h).store 24#64 0 8#64).field p d = some w := by
      intro p d w hf hw
      by_cases h1 : p = 8#64 ∧ d = 1
      · exfalso
        obtain ⟨rfl, rfl⟩ := h1
        rw [view_k6] at hf
        simp [Table.field, Table.store] at hf
        subst hf
        rcases hw with hw | hw <;> exact absurd hw (by decide)
      · rw [← hf]
        conv => rhs; simp only [Table.field, Table.store]
        conv => lhs; simp only [Table.field, Table.store]
        by_cases hp : p = 8#64
        swap
        · simp only [if_neg hp]
        subst hp
        simp only [if_neg (show ¬ (8#64 = 24#64) by decide), if_true]
        have hc : d ≠ 1 := fun hc => h1 ⟨rfl, hc⟩
        cases view k6.db.h 8#64 with
        | none => rfl
        | some fs => simp [List.getElem?_set, Ne.symm hc]
    refine simple_one (q := 24#64) (c := 0) (fun p d hf => ?_) (fun p d hf => ?_) (by decide)
    · obtain ⟨a, b, _⟩ := store_k6 p d _ (hst p d _ hf (Or.inr rfl)) (Or.inr rfl); exact ⟨a, b⟩
    · exact absurd (store_k6 p d _ (hst p d _ hf (Or.inl rfl)) (Or.inl rfl)).2.2 (by decide)

/-- The hypotheses of `C28_index_exact_partial`, `C25_after_history_partial` and `C27_after_history_partial` are met by a history with a template and a nested record; both
indexes have the rows that they should have. -/
example : IReach True k8 ∧ k8.pend = none ∧ rowsOf k8 = [[24, 8], [8]] ∧ (k8.db.ix.map fun e => (e.col, e.mrec)) = [(0, 0#64), (1, 16#64)] :=
  ⟨reach_k8, rfl, by decide +kernel, by decide +kernel⟩

/-- The hypotheses of `C28_calls_succeed_partial` are met: the nested record cannot be deleted. -/
example : IPre True k8 (.api (.delete 8#64)) ∧ outOf k8 (.api (.delete 8#64)) = some (.code (-1)) :=
  ⟨⟨rfl, ⟨_, by rfl⟩, by decide +kernel⟩, by decide +kernel⟩

/-! ### Counterexamples -/

def c1 : ISt := after k0 (.index 0 0#64 [] 100)
def c2 : ISt := after c1 (.api (.create 1 0 (some 8#64)))
def c3 : ISt := after c2 (.api (.create 2 0 (some 16#64)))
def c4 : ISt := after c3 (.api (.set 16#64 0 8#64 (some 48#64)))
def c5 : ISt := after c4 (.api (.set 16#64 1 8#64 (some 56#64)))

theorem reach_c1 : IReach True c1 := reach_k0.after ⟨rfl, Or.inl rfl, List.nodup_nil, (fun r => by simp [k0, Heap.empty]), by decide⟩
theorem reach_c2 : IReach True c2 := reach_c1.after ⟨rfl, by rintro o ⟨rfl⟩; exact ⟨by decide +kernel, by decide⟩⟩
theorem reach_c3 : IReach True c3 := reach_c2.after ⟨rfl, by rintro o ⟨rfl⟩; exact ⟨by decide +kernel, by decide⟩⟩

theorem view_c3 : view c3.db.h = fun p => if p = 16#64 then some [0#64, 0#64] else if p = 8#64 then some [0#64] else none := by
  have : c3.db.h.recs = upd (upd (fun _ => none) 8#64 (some ⟨0#64, 0#64, [0#64]⟩)) 16#64 (some ⟨0#64, 0#64, [0#64, 0#64]⟩) := by rfl
  funext p
  simp only [view, this, upd]
  split_ifs <;> rfl

theorem view_c4 : view c4.db.h = fun p => if p = 16#64 then some [8#64, 0#64] else if p = 8#64 then some [0#64] else none := by
  have : c4.db.h.recs = upd (upd c3.db.h.recs 16#64 (some ⟨0#64, 0#64, [8#64, 0#64]⟩)) 8#64 (some ⟨0#64, 48#64, [0#64]⟩) := by rfl
  have h3 : c3.db.h.recs = upd (upd (fun _ => none) 8#64 (some ⟨0#64, 0#64, [0#64]⟩)) 16#64 (some ⟨0#64, 0#64, [0#64, 0#64]⟩) := by rfl
  funext p
  simp only [view, this, h3, upd]
  split_ifs <;> first | rfl | simp_all

theorem not_sixteen {T : Table} {a b : List Word} (hT : T = fun p => if p = 16#64 then some a else if p = 8#64 then some b else none)
    (ha : 16#64 ∉ a) (hb : 16#64 ∉ b) (p : Word) (c : Nat) : T.field p c ≠ some 16#64 := by
  rw [hT]
  simp only [Table.field]
  split_ifs
  · exact fun h => ha (List.mem_of_getElem? h)
  · exact fun h => hb (List.mem_of_getElem? h)
  · simp

theorem good_eight (h : Heap) : Good h 8#64 := ⟨⟨.record 8#64, ⟨by unfold Aligned; decide, by decide⟩, by decide⟩, fun hf => absurd hf (by decide)⟩

theorem reach_c4 : IReach True c4 := by
  refine reach_c3.after ⟨rfl, by decide +kernel, ⟨_, by rfl⟩, sok_rec (rc := ⟨0#64, 0#64, [0#64]⟩) (by decide) (by decide +kernel), ?_, ?_, good_eight _,
    simple_alone (not_sixteen view_c3 (by decide) (by decide)), simple_alone (not_sixteen (a := [8#64, 0#64]) (b := [0#64]) ?_ (by decide) (by decide))⟩
  · intro _; exact ⟨48#64, rfl, by decide +kernel, by decide⟩
  · intro rc h1 h2
    have : c3.db.h.recs 16#64 = some ⟨0#64, 0#64, [0#64, 0#64]⟩ := by decide +kernel
    rw [this] at h1; cases h1
    exact absurd h2 (by decide)
  · rw [view_c3]
    funext p
    simp only [Table.store]
    split_ifs <;> rfl

theorem reach_c5 : IReach True c5 := by
  refine reach_c4.after ⟨rfl, by decide +kernel, ⟨_, by rfl⟩, sok_rec (rc := ⟨0#64, 48#64, [0#64]⟩) (by decide) (by decide +kernel), ?_, ?_, good_eight _,
    simple_alone (not_sixteen view_c4 (by decide) (by decide)), simple_alone (not_sixteen (a := [8#64, 8#64]) (b := [0#64]) ?_ (by decide) (by decide))⟩
  · intro _; exact ⟨56#64, rfl, by decide +kernel, by decide⟩
  · intro rc h1 h2
    have : c4.db.h.recs 16#64 = some ⟨0#64, 0#64, [8#64, 0#64]⟩ := by decide +kernel
    rw [this] at h1; cases h1
    exact absurd h2 (by decide)
  · rw [view_c4]
    funext p
    simp only [Table.store]
    split_ifs <;> rfl

/-- C28 fails when two fields of a record refer to the same record: after the call of wg_set_field that changes the record referred to
(which reports success), the record that refers to it is twice in the index on the first of the fields. -/
theorem C28_twice_counterexample : IReach True c5 ∧ c5.pend = none ∧ rowsOf c5 = [[8, 16]] ∧ outOf c5 (.api (.set 8#64 0 (small 5) none)) = some (.code 0) ∧
    rowsOf (after c5 (.api (.set 8#64 0 (small 5) none))) = [[16, 16, 8]] :=
  ⟨reach_c5, rfl, by decide +kernel, by decide +kernel, by decide +kernel⟩

/-- C28 fails when wg_set_new_field is used on a record made by wg_create_record, whose fields are in the indexes already: the record is
in the index twice. -/
theorem C28_set_new_counterexample : IReach True c2 ∧ c2.pend = none ∧ rowsOf c2 = [[8]] ∧ outOf c2 (.api (.setNew 8#64 0 (small 5) none)) = some (.code 0) ∧
    rowsOf (after c2 (.api (.setNew 8#64 0 (small 5) none))) = [[8, 8]] :=
  ⟨reach_c2, rfl, by decide +kernel, by decide +kernel, by decide +kernel⟩

/-- C28 fails when an index with a template is created while there is an index on one of the columns of the template: the match record (which is not a
data record) is in the index. -/
theorem C28_template_counterexample : IReach True c1 ∧ rowsOf c1 = [[]] ∧ rowsOf (after c1 (.template [small 5] (some 16#64))) = [[16]] ∧
    ¬ Row (after c1 (.template [small 5] (some 16#64))).db.h 0 0#64 16#64 := by
  refine ⟨reach_c1, by decide +kernel, by decide +kernel, ?_⟩
  rintro ⟨rc, h1, h2, _⟩
  have : (after c1 (.template [small 5] (some 16#64))).db.h.recs 16#64 = some ⟨3#64, 0#64, [small 5]⟩ := by decide +kernel
  rw [this] at h1; cases h1
  exact absurd h2 (by decide)

def r3 : ISt := after k2 (.raw 2 (some 8#64))
def r4 : ISt := after r3 (.api (.setNew 8#64 0 (small 5) none))
def r5 : ISt := after r4 (.api (.setNew 8#64 1 (small 6) none))

/-- C28 fails when a record made by wg_create_raw_record is filled while there is an index with a template that it comes to match: it is in the index
twice, once before its column is set. -/
theorem C28_raw_counterexample : IReach True k2 ∧ k2.pend = none ∧ outOf k2 (.raw 2 (some 8#64)) = some (.word 8#64) ∧
    outOf r3 (.api (.setNew 8#64 0 (small 5) none)) = some (.code 0) ∧ outOf r4 (.api (.setNew 8#64 1 (small 6) none)) = some (.code 0) ∧
    r5.pend = none ∧ rowsOf r5 = [[8, 8]] :=
  ⟨reach_k2, rfl, by decide +kernel, by decide +kernel, by decide +kernel, by decide +kernel, by decide +kernel⟩

end WG.Recs
