import Verif.Serve.SearchProps

/-!
# The server: a deletion deletes the records it asks for (C76)
-/
namespace WG.Serve
open WG.Csv (Str)
open WG.Recs
open Spec

variable {ι : Type} {C : Prop}

/-- A part of a request deletes the records `P`, as far as they can be. -/
def DelOk (C : Prop) (X : Ix ι) (a : Acc ι) (P : List Word) (e : Option (Acc ι)) : Prop :=
  ∃ b gone, e = some b ∧ Reach C X b.db ∧ Deleted (view a.db.h) (view b.db.h) P gone ∧ b.handled = a.handled + gone.length ∧ b.shown = a.shown

theorem delOk_nil {X : Ix ι} {a : Acc ι} (hr : Reach C X a.db) : DelOk C X a [] (some a) :=
  ⟨a, [], rfl, hr, ⟨List.Sublist.refl _, by simp, by simp, by simp⟩, rfl, rfl⟩

theorem delOk_step {X : Ix ι} (hix : ∀ h x r, -1 ≤ (X.delRec h x r).2) {a : Acc ι} (hr : Reach C X a.db) {r : Word} {fs : List Word}
    (hl : view a.db.h r = some fs) : DelOk C X a [r] (opDelete X r a) := by
  have hrec : ∃ rc, a.db.h.recs r = some rc := by
    cases h : a.db.h.recs r with
    | none => simp [view, h] at hl
    | some rc => exact ⟨rc, rfl⟩
  obtain ⟨s', out, e, ok⟩ := step_ok (C := C) X (reach_inv hr) (op := .delete r) hrec
  have hr' := hr.step (op := .delete r) hrec e
  cases hd : deleteRecord X a.db r with
  | none => simp [run, hd] at e
  | some y =>
    obtain ⟨s1, c⟩ := y
    simp only [run, hd, Option.map_some, Option.some.injEq, Prod.mk.injEq] at e
    obtain ⟨rfl, rfl⟩ := e
    have hsp := ok.spec
    simp only [SpecStep] at hsp
    unfold opDelete
    rw [hd]
    rcases hsp with ⟨rfl, h1, h2⟩ | ⟨h1, ⟨rfl, h2⟩ | ⟨rfl, _⟩⟩
    · refine ⟨_, [], rfl, hr', ⟨List.nil_sublist _, by simp, by simp [h2], ?_⟩, by simp, rfl⟩
      intro q hq _; simp at hq; subst hq; exact h1
    · refine ⟨_, [r], rfl, hr', ⟨List.Sublist.refl _, ?_, ?_, ?_⟩, by simp, rfl⟩
      · intro q hq; simp at hq; subst hq; rw [h2]; simp
      · intro q hq; simp at hq; rw [h2]; simp [hq]
      · intro q hq hn; exact absurd hq hn
    · obtain ⟨s2, c2, g1, _, _, g2, _⟩ := deleteRecord_full X (reach_inv hr) hrec
      rw [hd] at g1
      cases g1
      obtain ⟨rc, hrc⟩ := hrec
      have := g2 rfl rc hrc
      have := hix a.db.h a.db.ix r
      split at * <;> omega

theorem delOk_cons {X : Ix ι} {a : Acc ι} {r : Word} {P : List Word} {e : Option (Acc ι)} {k : Acc ι → Option (Acc ι)} (h1 : DelOk C X a [r] e) (hn : r ∉ P)
    (h2 : ∀ b, Reach C X b.db → (∀ q, q ≠ r → view b.db.h q = view a.db.h q) → DelOk C X b P (k b)) : DelOk C X a (r :: P) (e.bind k) := by
  obtain ⟨b, g1, rfl, hb, d1, c1, s1⟩ := h1
  have hsub : ∀ q ∈ g1, q = r := fun q hq => by simpa using d1.among.subset hq
  obtain ⟨b2, g2, e2, hb2, d2, c2, s2⟩ := h2 b hb (fun q hq => d1.rest q (fun hm => hq (hsub q hm)))
  refine ⟨b2, g1 ++ g2, e2, hb2, ⟨?_, ?_, ?_, ?_⟩, by rw [c2, c1, List.length_append]; omega, s2.trans s1⟩
  · exact d1.among.append d2.among
  · intro q hq
    by_cases hq2 : q ∈ g2
    · exact d2.now q hq2
    · rw [d2.rest q hq2]
      exact d1.now q (by rcases List.mem_append.1 hq with h | h; exact h; exact absurd h hq2)
  · intro q hq
    simp only [List.mem_append, not_or] at hq
    rw [d2.rest q hq.2, d1.rest q hq.1]
  · intro q hq hq'
    simp only [List.mem_append, not_or] at hq'
    rcases List.mem_cons.1 hq with rfl | hq
    · exact d1.kept q (by simp) hq'.1
    · obtain ⟨p, fs, e1, e3⟩ := d2.kept q hq hq'.2
      refine ⟨p, fs, ?_, e3⟩
      by_cases hp : p ∈ g1
      · rw [d1.now p hp] at e1; cases e1
      · rw [← d1.rest p hp]; exact e1

theorem delete_scan {X : Ix ι} (hix : ∀ h x r, -1 ≤ (X.delRec h x r).2) (c : Nat) (L : List Word) (rc g : Nat) (a : Acc ι) (hr : Reach C X a.db) (hg : g ≤ c)
    (hn : L.Nodup) (hl : ∀ r ∈ L, ∃ fs, view a.db.h r = some fs ∧ fs ≠ []) : DelOk C X a (L.take (c - g)) (scanLoop X .delete 0 c L rc g a) := by
  induction L generalizing rc g a with
  | nil => rw [List.take_nil, scanLoop]; exact delOk_nil hr
  | cons r L ih =>
    rw [scanLoop, if_pos (Nat.zero_le _)]
    by_cases h2 : c < g + 1
    · rw [if_pos h2, show c - g = 0 by omega, List.take_zero]; exact delOk_nil hr
    · obtain ⟨fs, h3, h4⟩ := hl r (by simp)
      have hlen : Recs.recordLen a.db.h r = some fs.length := by rw [recordLen_view, h3]; rfl
      rw [if_neg h2, if_pos rfl, Option.bind_some, scanDelete, if_pos rfl, hlen, Option.bind_some, if_pos (List.length_pos_iff.2 h4), show c - g = (c - (g + 1)) + 1 by omega,
        List.take_succ_cons]
      have hn' := List.nodup_cons.1 hn
      refine delOk_cons (delOk_step hix hr h3) (fun hm => hn'.1 (List.mem_of_mem_take hm)) ?_
      intro b hb hv
      refine ih _ _ _ hb (by omega) hn'.2 ?_
      intro q hq
      rw [hv q (by rintro rfl; exact hn'.1 hq)]
      exact hl q (by simp [hq])

theorem delete_fetch {X : Ix ι} (hix : ∀ h x r, -1 ≤ (X.delRec h x r).2) (f c : Nat) (L : List Word) (rc g : Nat) (a : Acc ι) (hr : Reach C X a.db) (hg : g < c)
    (hn : L.Nodup) (hl : ∀ r ∈ L, ∃ fs, view a.db.h r = some fs) : DelOk C X a (page (f - rc) (c - g) L) (fetchLoop X .delete f c L rc g a) := by
  induction L generalizing rc g a with
  | nil => simp only [page, List.drop_nil, List.take_nil, fetchLoop]; exact delOk_nil hr
  | cons r L ih =>
    have hn' := List.nodup_cons.1 hn
    rw [fetchLoop]
    by_cases h1 : f ≤ rc
    · simp only [if_pos h1, handle]
      obtain ⟨fs, h3⟩ := hl r (by simp)
      rw [show f - rc = 0 by omega, show c - g = (c - (g + 1)) + 1 by omega, show page 0 (c - (g + 1) + 1) (r :: L) = r :: page 0 (c - (g + 1)) L by simp [page]]
      refine delOk_cons (delOk_step hix hr h3) (fun hm => hn'.1 (by simp only [page, List.drop_zero] at hm; exact List.mem_of_mem_take hm)) ?_
      intro b hb hv
      by_cases h2 : c ≤ g + 1
      · rw [if_pos h2, show c - (g + 1) = 0 by omega]; simp only [page, List.take_zero]; exact delOk_nil hb
      · rw [if_neg h2]
        have := ih (rc + 1) (g + 1) b hb (by omega) hn'.2 (by
          intro q hq; rw [hv q (by rintro rfl; exact hn'.1 hq)]; exact hl q (by simp [hq]))
        rwa [show f - (rc + 1) = 0 by omega] at this
    · simp only [if_neg h1, Option.bind_some]
      rw [if_neg (by omega), show f - rc = (f - (rc + 1)) + 1 by omega, show page (f - (rc + 1) + 1) (c - g) (r :: L) = page (f - (rc + 1)) (c - g) L by simp [page]]
      exact ih _ _ _ hr hg hn'.2 (fun q hq => hl q (by simp [hq]))

theorem delete_ids {X : Ix ι} (hix : ∀ h x r, -1 ≤ (X.delRec h x r).2) (c : Nat) (ns : List Nat) (j g : Nat) (a : Acc ι) (hr : Reach C X a.db) (hg : g ≤ c)
    (hj : j + ns.length < maxIds) (hn : (ns.map (BitVec.ofNat 64)).Nodup)
    (hl : ∀ n ∈ ns, isRecVal (BitVec.ofNat 64 n) = true ∧ ∃ fs, view a.db.h (BitVec.ofNat 64 n) = some fs ∧ fs ≠ []) :
    DelOk C X a ((ns.map (BitVec.ofNat 64)).take (c - g)) (idsLoop X .delete c (ns.map fun (n : Nat) => (n : Int)) j g a) := by
  induction ns generalizing j g a with
  | nil => rw [List.map_nil, List.map_nil, List.take_nil, idsLoop, if_pos (by simpa using hj)]; exact delOk_nil hr
  | cons n t ih =>
    obtain ⟨h1, fs, h2, h3⟩ := hl n (by simp)
    have hlen : Recs.recordLen a.db.h (BitVec.ofNat 64 n) = some fs.length := by rw [recordLen_view, h2]; rfl
    have hx0 : fs.length ≠ 0 := by simpa using h3
    rw [List.map_cons, List.map_cons, idsLoop]
    rw [List.map_cons] at hn
    have hn' := List.nodup_cons.1 hn
    have ew : (BitVec.ofInt 64 ((n : Nat) : Int)) = BitVec.ofNat 64 n := by simp
    simp only [ew, if_pos h1, hlen, Option.bind_some, if_neg hx0]
    by_cases hc : c < g + 1
    · rw [if_pos hc, show c - g = 0 by omega, List.take_zero]; exact delOk_nil hr
    · rw [if_neg hc, show c - g = (c - (g + 1)) + 1 by omega, List.take_succ_cons, handle]
      refine delOk_cons (delOk_step hix hr h2) (fun hm => hn'.1 (List.mem_of_mem_take hm)) ?_
      intro b hb hv
      simp only [List.length_cons] at hj
      refine ih _ _ _ hb (by omega) (by omega) hn'.2 ?_
      intro q hq
      rw [hv _ (by intro e; exact hn'.1 (e ▸ List.mem_map_of_mem hq))]
      exact hl q (by simp [hq])

/-- C76: a deletion without conditions deletes the first `count` records, except those to which others refer; other records keep their fields, and the number in the answer is the
number of records deleted. Partial: with `from` the records before it are deleted too (`C76_delete_from_counterexample`), records without fields stay, and no index fails. -/
theorem C76_delete_partial (X : Ix ι) (hix : ∀ h x r, -1 ≤ (X.delRec h x r).2) {db : Db ι} (hr : Reach C X db) {L : List Word} (hn : L.Nodup)
    (hl : ∀ r ∈ L, ∃ fs, view db.h r = some fs ∧ fs ≠ []) {frm cnt : Option Str} {c : Nat} (hf : FromIs frm 0) (hc : CountIs .delete cnt c) :
    ∃ a gone, searchAll X .delete frm cnt L db = some a ∧ Reach C X a.db ∧ Deleted (view db.h) (view a.db.h) (page 0 c L) gone ∧ a.handled = gone.length := by
  obtain ⟨b, gone, h1, h2, h3, h4, _⟩ := delete_scan hix c L 0 0 ⟨db, [], 0⟩ hr (Nat.zero_le _) hn hl
  refine ⟨b, gone, ?_, h2, by simpa [page] using h3, by simpa using h4⟩
  unfold searchAll
  rw [from_is hf, count_is hc]; exact h1

/-- The same with conditions: the rows of the query from position `from` on, at most `count`. -/
theorem C76_delete_fields_partial (X : Ix ι) (hix : ∀ h x r, -1 ≤ (X.delRec h x r).2) {db : Db ι} (hr : Reach C X db) {L : List Word} (hn : L.Nodup)
    (hl : ∀ r ∈ L, ∃ fs, view db.h r = some fs) {frm cnt : Option Str} {f c : Nat} (hf : FromIs frm f) (hc : CountIs .delete cnt c) (h0 : 0 < c) :
    ∃ a gone, searchFields X .delete frm cnt L db = some a ∧ Reach C X a.db ∧ Deleted (view db.h) (view a.db.h) (page f c L) gone ∧ a.handled = gone.length := by
  obtain ⟨b, gone, h1, h2, h3, h4, _⟩ := delete_fetch hix f c L 0 0 ⟨db, [], 0⟩ hr h0 hn hl
  refine ⟨b, gone, ?_, h2, h3, by simpa using h4⟩
  unfold searchFields
  rw [from_is hf, count_is hc]; exact h1

/-- The same by record numbers. Partial: as `C76_ids_partial`, and no number is given twice (`C76_twice_counterexample`). -/
theorem C76_delete_ids_partial (X : Ix ι) (hix : ∀ h x r, -1 ≤ (X.delRec h x r).2) {db : Db ι} (hr : Reach C X db) {ns : List Nat} (hn : ns.Nodup)
    (hb : ∀ n ∈ ns, 0 < n ∧ n < 2 ^ 31) (h1 : ns.length < 1000)
    (hl : ∀ n ∈ ns, isRecVal (BitVec.ofNat 64 n) = true ∧ ∃ fs, view db.h (BitVec.ofNat 64 n) = some fs ∧ fs ≠ []) {cnt : Option Str} {c : Nat} (hc : CountIs .delete cnt c) :
    ∃ a gone, searchIds X .delete (idsText ns) cnt db = some a ∧ Reach C X a.db ∧ Deleted (view db.h) (view a.db.h) ((ns.map (BitVec.ofNat 64)).take c) gone ∧ a.handled = gone.length := by
  have hnm : (ns.map (BitVec.ofNat 64)).Nodup := by
    unfold List.Nodup
    rw [List.pairwise_map]
    refine List.Pairwise.imp_of_mem ?_ hn
    intro x y hx hy hxy e
    have := congrArg BitVec.toNat e
    simp only [BitVec.toNat_ofNat] at this
    have := hb x hx; have := hb y hy
    omega
  obtain ⟨b, gone, g1, g2, g3, g4, _⟩ := delete_ids hix c ns 0 0 ⟨db, [], 0⟩ hr (Nat.zero_le _) (by unfold maxIds; omega) hnm hl
  refine ⟨b, gone, ?_, g2, g3, by simpa using g4⟩
  unfold searchIds
  rw [count_is hc, parse_ids ns hb _ _ (Nat.le_refl _) (by unfold maxIds; omega)]; exact g1

end WG.Serve
