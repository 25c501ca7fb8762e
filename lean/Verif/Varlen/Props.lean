import Verif.Varlen.Extend
import Verif.Varlen.Spec
import Mathlib.Data.List.Induction
/-!
# C08, C09, C10, C50: the variable-length allocator
-/
namespace WG.Varlen

/-- Live objects and the blocks of the invariant. -/
def LRel (L : Live) (g : G) : Prop :=
  ∀ x, (L x = none ∧ usedAt g x = none) ∨
    ∃ n w, L x = some n ∧ usedAt g x = some w ∧ (w = 8 * n ∨ w = objSize (8 * n))

theorem LRel.urel {L : Live} {g g' : G} (h : LRel L g) (hu : URel g g') : LRel L g' := by
  intro x
  rcases h x with ⟨h1, h2⟩ | ⟨n, w, h1, h2, h3⟩
  · rcases hu x with e | ⟨w, e, _⟩
    · exact .inl ⟨h1, by rw [e]; exact h2⟩
    · rw [h2] at e; cases e
  · rcases hu x with e | ⟨w', e, e'⟩
    · exact .inr ⟨n, w, h1, by rw [e]; exact h2, h3⟩
    · rw [h2] at e; injection e with e; subst e
      refine .inr ⟨n, objSize w, h1, e', .inr ?_⟩
      rcases h3 with rfl | rfl
      · rfl
      · exact objSize_idem _

theorem LRel.put {L : Live} {g g' : G} {a n : Nat} (h : LRel L g) (hu : ∀ x, usedAt g' x = if x = a then some (8 * n) else usedAt g x) :
    LRel (L.put a n) g' := by
  intro x
  rw [hu x]
  unfold Live.put
  by_cases hx : x = a
  · rw [if_pos hx, if_pos hx]; exact .inr ⟨n, _, rfl, rfl, .inl rfl⟩
  · rw [if_neg hx, if_neg hx]; exact h x

theorem alloc_nat (st : St) (n : Nat) : alloc st (n : Int) = allocF 65 st (8 * n) := by
  unfold alloc
  rw [if_neg (by omega)]
  congr 1
  simp; omega

theorem InArea.of_blk {st : St} {g : G} (h : Inv st g) {a x : Nat} {b : Blk} (hb : g.blk a = some b) (h1 : a ≤ x) (h2 : x < a + b.size) :
    InArea st x := by
  obtain ⟨s, hs, h3, h4⟩ := h.geo.inn a b hb
  have := h.geo.subs_al s hs
  unfold Sub.lo Sub.hi at *
  exact ⟨s, hs, by omega, by omega⟩

structure RInv (st : St) (L : Live) (g : G) : Prop extends Good st g where
  lrel : LRel L g
  ends : Mk st

theorem reach_inv {st : St} {L : Live} (h : Reach st L) : ∃ g, RInv st L g := by
  induction h with
  | new h8 h0 hs hz h =>
    obtain ⟨g, h1, h2, _, _, _, _, h3⟩ := newArea_good h8 h0 hs hz h
    exact ⟨g, ⟨h1, fun x => .inl ⟨rfl, h2 x⟩, h3⟩⟩
  | alloc hr hn h ih =>
    rename_i st st' L n a
    obtain ⟨g, G0, hl, hm⟩ := ih
    rw [alloc_nat] at h
    obtain ⟨_, r2, r3⟩ := allocF_res 65 G0 (wanted := 8 * n) (by omega)
    rw [h] at r2 r3
    rcases r3 with ⟨a', g1, e1, e2, e3, e4, gm, e5, e6⟩ | ⟨g1, e1, _⟩
    · simp only [Option.some.injEq] at e1; subst e1
      exact ⟨g1, ⟨e2, (hl.urel e5).put e6, r2 hm⟩⟩
    · simp at e1
  | allocFail hr hn h ih =>
    rename_i st st' L n
    obtain ⟨g, G0, hl, hm⟩ := ih
    rw [alloc_nat] at h
    obtain ⟨_, r2, r3⟩ := allocF_res 65 G0 (wanted := 8 * n) (by omega)
    rw [h] at r2 r3
    rcases r3 with ⟨a', g1, e1, _⟩ | ⟨g1, e1, e2, e3, e4⟩
    · simp at e1
    · exact ⟨g1, ⟨e2, hl.urel e4, r2 hm⟩⟩
  | free hr ha ih =>
    rename_i st L a n
    obtain ⟨g, G0, hl, hm⟩ := ih
    rcases hl a with ⟨e, _⟩ | ⟨n', w, e1, e2, e3⟩
    · rw [ha] at e; cases e
    obtain ⟨sz, hb⟩ := usedAt_some.1 e2
    obtain ⟨_, ⟨g1, q1, q2, q3, q4⟩, _⟩ := free_res G0 hb
    refine ⟨g1, ⟨q1, ?_, ?_⟩⟩
    · intro x
      rw [q3, usedAt_setK_hole]
      unfold Live.del
      by_cases hx : x = a
      · rw [if_pos hx, if_pos hx]; exact .inl ⟨rfl, rfl⟩
      · rw [if_neg hx, if_neg hx]; exact hl x
    · exact Mk.fr (G0.inv.to_hole hb (by simp)) hm q2 q4.1
  | write hr ha hx8 hx1 hx2 ih =>
    rename_i st L a n x v
    obtain ⟨g, G0, hl, hm⟩ := ih
    rcases hl a with ⟨e, _⟩ | ⟨n', w, e1, e2, e3⟩
    · rw [ha] at e; cases e
    rw [ha] at e1; injection e1 with e1; subst e1
    obtain ⟨sz, hb⟩ := usedAt_some.1 e2
    obtain ⟨_, hsz, _⟩ := G0.inv.cont.used _ _ _ hb
    have hle : 8 * n ≤ sz := by
      rw [hsz]; rcases e3 with rfl | rfl
      · exact (objSize_al (by omega)).2.2
      · rw [objSize_idem]; exact (objSize_al (by omega)).2.2
    refine ⟨g, ⟨⟨?_, G0.dv.of_blk (fun _ _ => rfl) (fun _ _ => Iff.rfl), G0.nohole⟩, hl, ?_⟩⟩
    · apply G0.inv.congr_mem
      intro y hy
      apply upd_ne
      rintro rfl
      rcases hy with ⟨s, hs, hy⟩ | ⟨c, b, hc, hy⟩
      · have := G0.inv.geo.marker_out hs hb
        simp only at this
        omega
      · rcases hy with ⟨⟨w', hk⟩, rfl⟩ | ⟨hk, h3, h4⟩
        · have alc := G0.inv.geo.al _ _ hc
          obtain ⟨e, _⟩ := G0.inv.geo.eq_of_overlap hb hc (x := y) (by omega) (by simp only; omega) (by omega) (by omega)
          omega
        · obtain ⟨_, e⟩ := G0.inv.geo.eq_of_overlap hb hc (x := y) (by omega) (by simp only; omega) h3 h4
          rw [← e] at hk; simp at hk
    · intro s hs
      show upd st.mem x v _ = 0
      rw [upd_ne]
      · exact hm s hs
      · rintro rfl
        have := (G0.inv.prot_marker hs).2.2 a _ hb
        obtain ⟨t, ht, h5, h6⟩ := G0.inv.geo.inn a _ hb
        have h7 := G0.inv.geo.subs_al t ht
        have h8 := G0.inv.geo.subs_al s hs
        simp only at h6
        unfold Sub.lo Sub.hi at *
        rcases G0.inv.geo.sub_cases hs ht with rfl | e | e <;> omega
  | others hr hf h8 hz hm' ih =>
    rename_i st L mem' f
    obtain ⟨g, G0, hl, hm⟩ := ih
    have i1 : Inv { st with mem := mem' } g := by
      apply G0.inv.congr_mem
      intro y hy
      apply hm'
      rcases hy with ⟨s, hs, hy⟩ | ⟨c, b, hc, hy⟩
      · have := G0.inv.geo.subs_al s hs
        refine ⟨s, hs, ?_⟩
        unfold Sub.hi at hy; omega
      · have alc := G0.inv.geo.al _ _ hc
        rcases hy with ⟨_, rfl⟩ | ⟨_, h1, h2⟩
        · exact InArea.of_blk G0.inv hc (by omega) (by omega)
        · exact InArea.of_blk G0.inv hc h1 h2
    refine ⟨g, ⟨⟨⟨i1.geo, i1.cont, ?_, ?_⟩, G0.dv.of_blk (fun _ _ => rfl) (fun _ _ => Iff.rfl), G0.nohole⟩, hl, ?_⟩⟩
    · intro s hs
      have := G0.inv.chunk s hs
      simp only; omega
    · have := G0.inv.segAl
      simp only; omega
    · intro s hs
      have h1 := G0.inv.geo.subs_al s hs
      show mem' _ = 0
      rw [hm' _ ⟨s, hs, by unfold Sub.hi; omega, by unfold Sub.hi; omega⟩]
      exact hm s hs

/-- The block of a live object. -/
theorem RInv.live {st : St} {L : Live} {g : G} (h : RInv st L g) {a n : Nat} (ha : L a = some n) :
    ∃ w, g.blk a = some ⟨room n, .used w⟩ ∧ (w = 8 * n ∨ w = room n) ∧ (st.mem a = w ∨ st.mem a = w + 2) ∧ w % 8 = 0 := by
  rcases h.lrel a with ⟨e, _⟩ | ⟨n', w, e1, e2, e3⟩
  · rw [ha] at e; cases e
  rw [ha] at e1; injection e1 with e1; subst e1
  obtain ⟨sz, hb⟩ := usedAt_some.1 e2
  obtain ⟨h1, h2, h3⟩ := h.inv.cont.used _ _ _ hb
  have : sz = room n := by
    rw [h2]; rcases e3 with rfl | rfl
    · rfl
    · exact objSize_idem _
  subst this
  exact ⟨w, hb, e3, h3, h1⟩

theorem RInv.onList {st : St} {L : Live} {g : G} (h : RInv st L g) {i x : Nat} (hi : i < 288) :
    OnList st i x ↔ x ∈ g.ch i := by
  obtain ⟨e1, e2, _⟩ := h.inv.cont.list i hi
  constructor
  · intro ho
    induction ho with
    | head hne =>
      cases hl : g.ch i with
      | nil => rw [hl] at e1; simp at e1; exact absurd e1 hne
      | cons a l => rw [hl] at e1; simp at e1; rw [e1]; simp
    | next hx hne ih =>
      obtain ⟨l1, l2, hl⟩ := List.append_of_mem ih
      rw [hl] at e2
      obtain ⟨d1, _⟩ := DL_at e2
      rw [d1] at hne ⊢
      cases l2 with
      | nil => simp at hne
      | cons b l2 => rw [hl]; simp
  · intro hx
    obtain ⟨l1, l2, hl⟩ := List.append_of_mem hx
    have pos : ∀ y ∈ g.ch i, y ≠ 0 := by
      intro y hy
      obtain ⟨q, hq, _⟩ := (h.inv.cont.mem_ch i hi y).1 hy
      have := h.inv.geo.pos hq; omega
    clear hx
    induction l1 using List.reverseRecOn generalizing x l2 with
    | nil =>
      rw [hl] at e1
      simp at e1
      rw [← e1]
      refine .head ?_
      rw [e1]; exact pos x (by rw [hl]; simp)
    | append_singleton l1 y ih =>
      have hl' : g.ch i = l1 ++ y :: (x :: l2) := by rw [hl]; simp
      have hy := ih (x :: l2) hl'
      rw [hl'] at e2
      obtain ⟨d1, _⟩ := DL_at e2
      simp only [List.headD_cons] at d1
      rw [← d1]
      refine .next hy ?_
      rw [d1]; exact pos x (by rw [hl]; simp)

/-- The available blocks are the free blocks and the victim of the invariant. -/
theorem RInv.avail {st : St} {L : Live} {g : G} (h : RInv st L g) {x n : Nat} :
    Avail st x n ↔ g.blk x = some ⟨n, .free⟩ ∨ g.blk x = some ⟨n, .dv⟩ := by
  constructor
  · rintro (⟨i, hi, ho, rfl⟩ | ⟨h1, rfl, rfl⟩)
    · obtain ⟨q, hq, _⟩ := (h.inv.cont.mem_ch i hi x).1 ((h.onList hi).1 ho)
      have al := h.inv.geo.al _ _ hq
      rw [(h.inv.cont.free _ _ hq).1, clr_of al.2.1 (by omega)]
      exact .inl hq
    · rcases h.dv with ⟨e, _⟩ | ⟨e, _⟩
      · exact absurd e h1
      · exact .inr e
  · rintro (hb | hb)
    · have hi := bix_lt (h.inv.size_lt hb)
      have al := h.inv.geo.al _ _ hb
      refine .inl ⟨bix n, hi, (h.onList hi).2 ((h.inv.cont.mem_ch _ hi x).2 ⟨n, hb, rfl⟩), ?_⟩
      rw [(h.inv.cont.free _ _ hb).1]
      exact (clr_of al.2.1 (by omega)).symm
    · have := h.inv.geo.pos hb
      rcases h.dv with ⟨_, _, e⟩ | ⟨e1, e2⟩
      · exact absurd hb (e _ _)
      · have := e2 _ _ hb
        subst this
        rw [hb] at e1; injection e1 with e1; injection e1 with e1
        exact .inr ⟨by omega, rfl, e1⟩

theorem Geo.apart_blk {subs : List Sub} {B : Nat → Option Blk} (h : Geo subs B) {a c : Nat} {b d : Blk}
    (hb : B a = some b) (hd : B c = some d) (hne : a ≠ c) : Apart a b.size c d.size := by
  rcases Nat.lt_or_gt_of_ne hne with h5 | h5
  · exact .inl (h.disj a b c d hb hd h5)
  · exact .inr (h.disj c d a b hd hb h5)

/-! ## C08 -/

/-- Two live objects do not overlap. -/
theorem C08_disjoint {st : St} {L : Live} (h : Reach st L) {a b n m : Nat} (ha : L a = some n) (hb : L b = some m) (hne : a ≠ b) :
    Apart a (room n) b (room m) := by
  obtain ⟨g, hg⟩ := reach_inv h
  obtain ⟨w, h1, _⟩ := hg.live ha
  obtain ⟨w', h2, _⟩ := hg.live hb
  exact hg.inv.geo.apart_blk h1 h2 hne

/-- A live object is aligned, not at offset 0, and lies inside a subarea of its area, after the header of the subarea
and before its end marker, inside the used part of the segment. -/
theorem C08_inside {st : St} {L : Live} (h : Reach st L) {a n : Nat} (ha : L a = some n) :
    a % 8 = 0 ∧ 0 < a ∧ ∃ s ∈ st.subs, s.aoff + 32 ≤ a ∧ a + room n ≤ s.aoff + s.asize - 32 ∧
      s.off ≤ s.aoff ∧ s.aoff + s.asize ≤ s.off + s.size ∧ s.off + s.size ≤ st.segFree ∧ st.segFree ≤ st.segSize := by
  obtain ⟨g, hg⟩ := reach_inv h
  obtain ⟨w, h1, _⟩ := hg.live ha
  have al := hg.inv.geo.al _ _ h1
  have := hg.inv.geo.pos h1
  obtain ⟨s, hs, h3, h4⟩ := hg.inv.geo.inn _ _ h1
  have hc := hg.inv.chunk s hs
  exact ⟨al.1, by omega, s, hs, h3, h4, hc.1, hc.2.1, hc.2.2.1, hg.inv.segAl.2.2.1⟩

/-- The subareas do not overlap. -/
theorem C08_subareas {st : St} {L : Live} (h : Reach st L) : st.subs.Pairwise (fun s t => s.aoff + s.asize ≤ t.aoff) := by
  obtain ⟨g, hg⟩ := reach_inv h
  exact hg.inv.geo.subs_pw

/-- No live object meets a block on a free list or the designated victim; those do not meet each other either. -/
theorem C08_free {st : St} {L : Live} (h : Reach st L) {x k : Nat} (hx : Avail st x k) :
    (∀ a n, L a = some n → Apart a (room n) x k) ∧ (∀ y m, Avail st y m → x ≠ y → Apart x k y m) := by
  obtain ⟨g, hg⟩ := reach_inv h
  have hx' := hg.avail.1 hx
  constructor
  · intro a n ha
    obtain ⟨w, h1, _⟩ := hg.live ha
    rcases hx' with hx' | hx'
    · refine hg.inv.geo.apart_blk h1 hx' ?_
      rintro rfl; rw [h1] at hx'; simp at hx'
    · refine hg.inv.geo.apart_blk h1 hx' ?_
      rintro rfl; rw [h1] at hx'; simp at hx'
  · intro y m hy hne
    rcases hx' with hx' | hx' <;> rcases hg.avail.1 hy with hy' | hy' <;> exact hg.inv.geo.apart_blk hx' hy' hne

/-- A successful allocation returns an offset that was not in use. -/
theorem C08_fresh {st st' : St} {L : Live} (h : Reach st L) {n a : Nat} (hn : n < 2^37) (ha : alloc st n = (st', some a)) :
    L a = none ∧ ∀ b m, L b = some m → Apart a (room n) b (room m) := by
  obtain ⟨g, hg⟩ := reach_inv h
  have hna : L a = none := by
    have ha' := ha
    rw [alloc_nat] at ha'
    obtain ⟨_, _, r3⟩ := allocF_res 65 hg.toGood (wanted := 8 * n) (by omega)
    rw [ha'] at r3
    rcases r3 with ⟨a', g1, e1, _, _, e4, _⟩ | ⟨g1, e1, _⟩
    · simp only [Option.some.injEq] at e1; subst e1
      rcases hg.lrel a with ⟨e, _⟩ | ⟨_, w, _, e, _⟩
      · exact e
      · rw [e4] at e; cases e
    · simp at e1
  refine ⟨hna, ?_⟩
  intro b m hb
  have hab : a ≠ b := by rintro rfl; rw [hna] at hb; cases hb
  exact C08_disjoint (.alloc h hn ha) (a := a) (b := b) (by simp [Live.put]) (by simp [Live.put, hab.symm, hb]) hab

/-- Freeing a live object always succeeds. -/
theorem C08_free_ok {st : St} {L : Live} (h : Reach st L) {a n : Nat} (ha : L a = some n) : (free st a).2 = 0 := by
  obtain ⟨g, hg⟩ := reach_inv h
  obtain ⟨w, h1, _⟩ := hg.live ha
  exact (free_res hg.toGood h1).1

/-! ## C09 -/

theorem RInv.prot_payload {st : St} {L : Live} {g : G} (hg : RInv st L g) {b m x : Nat} (hb : L b = some m) (h1 : b + 8 ≤ x)
    (h2 : x < b + 8 * m) : Prot st g x := by
  obtain ⟨w, hb', _⟩ := hg.live hb
  have hr : 8 * m ≤ room m := by unfold room; omega
  obtain ⟨s, hs, h3, h4⟩ := hg.inv.geo.inn _ _ hb'
  have hc := hg.inv.chunk s hs
  simp only at h4
  refine ⟨by unfold Sub.hi at h4; have := hg.inv.geo.subs_al s hs; omega, ?_, ?_⟩
  · intro t ht
    have := hg.inv.geo.marker_out ht hb'
    simp only at this
    omega
  · intro a d hd h5 h6
    obtain ⟨rfl, rfl⟩ := hg.inv.geo.eq_of_overlap hb' hd (x := x) (by omega) (by simp only; omega) h5 h6
    exact ⟨⟨w, rfl⟩, by omega⟩

theorem RInv.prot_outside {st : St} {L : Live} {g : G} (hg : RInv st L g) {x : Nat} (h1 : x < st.segFree ∨ st.segSize ≤ x) (h2 : ¬ InArea st x) :
    Prot st g x := by
  refine ⟨h1, ?_, ?_⟩
  · intro s hs
    have := hg.inv.geo.subs_al s hs
    constructor
    · rintro rfl; exact h2 ⟨s, hs, by omega, by omega⟩
    · rintro rfl; exact h2 ⟨s, hs, by unfold Sub.hi; omega, by unfold Sub.hi; omega⟩
  · intro a b hb h3 h4
    exact absurd (InArea.of_blk hg.inv hb h3 h4) h2

/-- Allocation, successful or not, changes no word of any live object, and no word of the used part of the segment outside
the area, and nothing behind the segment. -/
theorem C09_alloc_frame {st : St} {L : Live} (h : Reach st L) (n : Nat) :
    (∀ b m x, L b = some m → b + 8 ≤ x → x < b + 8 * m → (alloc st n).1.mem x = st.mem x) ∧
    (∀ x, x < st.segFree ∨ st.segSize ≤ x → ¬ InArea st x → (alloc st n).1.mem x = st.mem x) := by
  obtain ⟨g, hg⟩ := reach_inv h
  have fr : ∀ x, Prot st g x → (alloc st n).1.mem x = st.mem x := by
    intro x hx
    rw [alloc_nat]
    obtain ⟨_, _, r3⟩ := allocF_res 65 hg.toGood (wanted := 8 * n) (by omega)
    rcases r3 with ⟨_, _, _, _, e, _⟩ | ⟨_, _, _, e, _⟩
    · exact (e x hx).1
    · exact (e x hx).1
  exact ⟨fun b m x hb h1 h2 => fr x (hg.prot_payload hb h1 h2), fun x h1 h2 => fr x (hg.prot_outside h1 h2)⟩

/-- Freeing an object changes no word of any other live object, and nothing outside the area. -/
theorem C09_free_frame {st : St} {L : Live} (h : Reach st L) {a n : Nat} (ha : L a = some n) :
    (∀ b m x, L b = some m → b ≠ a → b + 8 ≤ x → x < b + 8 * m → (free st a).1.mem x = st.mem x) ∧
    (∀ x, x < st.segFree ∨ st.segSize ≤ x → ¬ InArea st x → (free st a).1.mem x = st.mem x) := by
  obtain ⟨g, hg⟩ := reach_inv h
  obtain ⟨w, h1, _⟩ := hg.live ha
  obtain ⟨_, ⟨g1, q1, q2, q3, q4⟩, _⟩ := free_res hg.toGood h1
  have fr : ∀ x, Prot st g x → ¬ (a ≤ x ∧ x < a + room n) → (free st a).1.mem x = st.mem x :=
    fun x hx hx2 => (q2 x (hx.to_hole h1 hx2)).1
  constructor
  · intro b m x hb hne h2 h3
    refine fr x (hg.prot_payload hb h2 h3) ?_
    rintro ⟨h4, h5⟩
    have := C08_disjoint h hb ha hne
    unfold Apart room at *
    omega
  · intro x h2 h3
    refine fr x (hg.prot_outside h2 h3) ?_
    rintro ⟨h4, h5⟩
    exact h3 (InArea.of_blk hg.inv h1 h4 h5)

/-- The size recorded for a live object of four or more words (for a record: at least one field; for a string: always) is
what was asked for, in every reachable state. So no operation on other objects changes it. Smaller objects: at least what was
asked for, at most 32 bytes. -/
theorem C09_size_partial {st : St} {L : Live} (h : Reach st L) {a n : Nat} (ha : L a = some n) :
    (4 ≤ n → clr (st.mem a) = 8 * n) ∧ 8 * n ≤ clr (st.mem a) ∧ clr (st.mem a) ≤ room n ∧ usedSize (st.mem a) = room n := by
  obtain ⟨g, hg⟩ := reach_inv h
  obtain ⟨w, h1, h2, h3, h4⟩ := hg.live ha
  have hc : clr (st.mem a) = w := by
    rcases h3 with h3 | h3 <;> rw [h3]
    · exact clr_self h4
    · exact clr_of h4 (by omega)
  have hus : usedSize (st.mem a) = objSize w := by
    rcases h3 with h3 | h3 <;> rw [h3]
    · exact usedSize_of (k := 0) h4 (by omega)
    · exact usedSize_of h4 (by omega)
  rw [hc, hus]
  unfold objSize room at *
  omega

/-! ## C10 -/

/-- No two available blocks are adjacent. -/
theorem C10_coalesced {st : St} {L : Live} (h : Reach st L) {x n y m : Nat} (hx : Avail st x n) (hy : Avail st y m) : x + n ≠ y := by
  obtain ⟨g, hg⟩ := reach_inv h
  rintro rfl
  rcases hg.avail.1 hx with hx | hx <;> rcases hg.avail.1 hy with hy | hy
  · exact hg.inv.cont.adj _ _ _ hx hy (.inl rfl) (.inl rfl)
  · exact hg.inv.cont.adj _ _ _ hx hy (.inl rfl) (.inr rfl)
  · exact hg.inv.cont.adj _ _ _ hx hy (.inr rfl) (.inl rfl)
  · exact hg.inv.cont.adj _ _ _ hx hy (.inr rfl) (.inr rfl)

theorem Geo.cover {subs : List Sub} {B : Nat → Option Blk} (h : Geo subs B) {s : Sub} (hs : s ∈ subs) :
    ∀ (k : Nat) {y : Nat}, y ≤ s.lo + k → s.lo ≤ y → y < s.hi → ∃ a b, B a = some b ∧ a ≤ y ∧ y < a + b.size := by
  intro k
  induction k with
  | zero =>
    intro y h1 h2 h3
    obtain ⟨c, hc⟩ := h.first s hs
    have := h.al _ _ hc
    exact ⟨s.lo, c, hc, h2, by omega⟩
  | succ k ih =>
    intro y h1 h2 h3
    by_cases hy : y ≤ s.lo + k
    · exact ih hy h2 h3
    · obtain ⟨a, b, hb, h4, h5⟩ := ih (y := y - 1) (by omega) (by omega) (by omega)
      by_cases h6 : y < a + b.size
      · exact ⟨a, b, hb, by omega, h6⟩
      · have hya : a + b.size = y := by omega
        rcases h.next a b hb with ⟨t, ht, h7⟩ | ⟨c, hc⟩
        · exfalso
          obtain ⟨u, hu, h8, h9⟩ := h.inn a b hb
          have p1 := h.subs_al t ht
          have p2 := h.subs_al s hs
          have p3 := h.subs_al u hu
          have p4 := h.al a b hb
          unfold Sub.lo Sub.hi at *
          rcases h.sub_cases hs ht with rfl | e | e
          · omega
          · omega
          · rcases h.sub_cases hs hu with rfl | e' | e' <;> omega
        · have := h.al _ _ hc
          rw [hya] at hc
          exact ⟨y, c, hc, by omega, by omega⟩

/-- Nothing is lost: every byte of a subarea between its markers belongs to a live object or to an available block. -/
theorem C10_nothing_lost {st : St} {L : Live} (h : Reach st L) {s : Sub} (hs : s ∈ st.subs) {y : Nat} (h1 : s.aoff + 32 ≤ y)
    (h2 : y < s.aoff + s.asize - 32) :
    (∃ a n, L a = some n ∧ a ≤ y ∧ y < a + room n) ∨ (∃ x n, Avail st x n ∧ x ≤ y ∧ y < x + n) := by
  obtain ⟨g, hg⟩ := reach_inv h
  obtain ⟨a, b, hb, h3, h4⟩ := hg.inv.geo.cover hs (y - s.lo) (y := y) (by unfold Sub.lo; omega) h1 h2
  obtain ⟨n, k⟩ := b
  cases k with
  | hole => exact absurd hb (hg.nohole _ _)
  | free => exact .inr ⟨a, n, hg.avail.2 (.inl hb), h3, h4⟩
  | dv => exact .inr ⟨a, n, hg.avail.2 (.inr hb), h3, h4⟩
  | used w =>
    left
    rcases hg.lrel a with ⟨_, e⟩ | ⟨n', w', e1, e2, e3⟩
    · rw [usedAt_some.2 ⟨n, hb⟩] at e; cases e
    · obtain ⟨w'', hb', _⟩ := hg.live e1
      rw [hb] at hb'; injection hb' with hb'; injection hb' with hb' _
      exact ⟨a, n', e1, h3, by rw [← hb']; exact h4⟩

/-! ## C50 -/

/-- List `i` below 256 holds blocks of exactly `i` bytes; list `256+k` holds blocks of at least `256*2^k` and less than
`512*2^k` bytes. -/
theorem C50_list_sizes {st : St} {L : Live} (h : Reach st L) {i x : Nat} (hi : i < 288) (hx : OnList st i x) :
    (i < 256 → clr (st.mem x) = i) ∧
    (256 ≤ i → 256 * 2^(i - 256) ≤ clr (st.mem x) ∧ clr (st.mem x) < 512 * 2^(i - 256)) := by
  obtain ⟨g, hg⟩ := reach_inv h
  obtain ⟨q, hq, hqi⟩ := (hg.inv.cont.mem_ch i hi x).1 ((hg.onList hi).1 hx)
  have al := hg.inv.geo.al _ _ hq
  rw [(hg.inv.cont.free _ _ hq).1, clr_of al.2.1 (by omega)]
  have hsz := hg.inv.size_lt hq
  simp only at hsz
  rcases Nat.lt_or_ge q 256 with h5 | h5
  · rw [bix_small h5] at hqi; subst hqi
    exact ⟨fun _ => rfl, fun h => by omega⟩
  · obtain ⟨k, k1, k2, k3, k4⟩ := bix_big h5 hsz
    have : i = 256 + k := by omega
    subst this
    refine ⟨fun h => by omega, fun _ => ?_⟩
    have : 256 + k - 256 = k := by omega
    rw [this]; exact ⟨k3, k4⟩

/-- The list chosen for a size: exact below 256, above in the list of its range; always inside the array for blocks below
2^40 bytes. -/
theorem C50_index (n : Nat) (h : n < 2^40) : ∃ i, bucketIdx n = some i ∧ i < 288 ∧ (n < 256 → i = n) ∧
    (256 ≤ n → 256 ≤ i ∧ 256 * 2^(i - 256) ≤ n ∧ n < 512 * 2^(i - 256)) := by
  rcases Nat.lt_or_ge n 256 with h5 | h5
  · exact ⟨n, by simp [bucketIdx, EXACT, h5], by omega, fun _ => rfl, fun h => by omega⟩
  · obtain ⟨k, _, k2, k3, k4, k5⟩ := bucketLoop_spec n 32 0 (by omega) (by omega)
    refine ⟨256 + k, ?_, by omega, fun h => by omega, fun _ => ⟨by omega, ?_⟩⟩
    · have : bucketLoop n VARB 0 (EXACT * 2) = some (256 + k) := k3
      unfold bucketIdx
      rw [if_neg (by unfold EXACT; omega)]; exact this
    · have : 256 + k - 256 = k := by omega
      rw [this]; exact ⟨k4, k5⟩

/-- A block in a list of higher index is larger. -/
theorem C50_ordered {n m i j : Nat} (hn : bucketIdx n = some i) (hm : bucketIdx m = some j) (h1 : n < 2^40) (h2 : m < 2^40) (hij : i < j) :
    n < m := by
  obtain ⟨i', a1, a2, a3, a4⟩ := C50_index n h1
  obtain ⟨j', b1, b2, b3, b4⟩ := C50_index m h2
  rw [hn] at a1; injection a1 with a1; subst a1
  rw [hm] at b1; injection b1 with b1; subst b1
  rcases Nat.lt_or_ge n 256 with h5 | h5
  · have := a3 h5
    rcases Nat.lt_or_ge m 256 with h6 | h6
    · have := b3 h6; omega
    · omega
  · obtain ⟨c1, c2, c3⟩ := a4 h5
    rcases Nat.lt_or_ge m 256 with h6 | h6
    · have := b3 h6; omega
    · obtain ⟨d1, d2, d3⟩ := b4 h6
      have : 2^(i - 256 + 1) ≤ 2^(j - 256) := Nat.pow_le_pow_right (by omega) (by omega)
      rw [Nat.pow_succ] at this
      omega

/-! ## C10, reuse -/

theorem bix_mono {n m : Nat} (h : n ≤ m) (hm : m < 2^40) : bix n ≤ bix m := by
  rcases Nat.lt_or_ge m 256 with h5 | h5
  · rw [bix_small h5, bix_small (by omega)]; exact h
  · obtain ⟨j, _, j2, j3, j4⟩ := bix_big h5 hm
    rcases Nat.lt_or_ge n 256 with h6 | h6
    · rw [bix_small h6]; omega
    · obtain ⟨k, _, k2, k3, k4⟩ := bix_big h6 (by omega)
      rw [j2, k2]
      by_contra hlt
      have : 2^(j + 1) ≤ 2^k := Nat.pow_le_pow_right (by omega) (by omega)
      rw [Nat.pow_succ] at this
      omega

theorem findExact_none {st : St} {used : Nat} : ∀ {k i : Nat}, findExact st used k i = none → ∀ j, i ≤ j → j < i + k → j < 256 →
    st.fb j ≠ 0 → clr (st.mem (st.fb j)) < used + 32 := by
  intro k
  induction k with
  | zero => intro i _ j h1 h2; omega
  | succ k ih =>
    intro i h j h1 h2 h3 h4
    unfold findExact at h
    split_ifs at h with h5 h6
    · by_cases hj : j = i
      · subst hj
        have : MINSZ = 32 := rfl
        rw [this] at h6
        have : ¬ clr (st.mem (st.fb j)) ≥ used + 32 := fun h => h6 ⟨h4, h⟩
        omega
      · exact ih h j (by omega) (by omega) h3 h4
    · unfold EXACT at h5; omega

theorem findVar_none {st : St} {used : Nat} : ∀ {k i : Nat}, findVar st used k i = none → ∀ j, i ≤ j → j < i + k → j < 288 →
    st.fb j ≠ 0 → clr (st.mem (st.fb j)) ≠ used ∧ clr (st.mem (st.fb j)) < used + 32 := by
  intro k
  induction k with
  | zero => intro i _ j h1 h2; omega
  | succ k ih =>
    intro i h j h1 h2 h3 h4
    unfold findVar at h
    split_ifs at h with h5 h6
    · by_cases hj : j = i
      · subst hj
        have : MINSZ = 32 := rfl
        rw [this] at h6
        constructor
        · intro h; exact h6 ⟨h4, .inl h⟩
        · have : ¬ clr (st.mem (st.fb j)) ≥ used + 32 := fun h => h6 ⟨h4, .inr h⟩
          omega
      · exact ih h j (by omega) (by omega) h3 h4
    · unfold EXACT VARB at h5; omega

theorem allocHere_room {st : St} {wanted : Nat} (hw : wanted % 8 = 0) (h : HasRoom st (objSize wanted)) : allocHere st wanted ≠ none := by
  obtain ⟨s, h1, h2⟩ := h
  unfold allocHere
  simp only
  rw [usedBytes_eq hw]
  split
  · simp
  rename_i n1
  split
  · simp
  split
  · simp
  rename_i n3
  split
  · simp
  rename_i n4
  split
  · split <;> simp
  rename_i n5
  exfalso
  rcases h2 with ⟨d1, d2⟩ | ⟨e1, e2, e3⟩
  · unfold takeDv at n3
    simp only at n3
    rw [usedBytes_eq hw, d2, if_pos ⟨by omega, d1⟩] at n3
    split at n3
    · simp at n3
    · rename_i h5
      rw [if_pos (by have : MINSZ = 32 := rfl; omega)] at n3
      simp at n3
  · rcases Nat.lt_or_ge s 256 with h5 | h5
    · rw [bix_small h5] at e2 e3
      rcases h1 with h1 | h1
      · subst h1; exact n1 ⟨h5, e2⟩
      · have := findExact_none n4 s (by omega) (by have : EXACT = 256 := rfl; omega) h5 e2
        omega
    · have hb := bix_mono (n := objSize wanted) (m := s) (by omega) e1
      have hl := bix_lt e1
      obtain ⟨q1, q2⟩ := findVar_none n5 (bix s) hb (by have : EXACT + VARB = 288 := rfl; omega) hl e2
      omega

/-- Memory of a freed object is used again without growing the area: a request that needs as much memory, or at least 32 bytes
less, succeeds and leaves subareas and segment as they are. Missing for the full property: requests needing 8, 16 or 24 bytes
less (`C10_reuse_counterexample`). -/
theorem C10_reuse_partial {st : St} {L : Live} (h : Reach st L) {a n n' : Nat} (ha : L a = some n)
    (hn : room n' = room n ∨ room n' + 32 ≤ room n) :
    ∃ b, (alloc (free st a).1 n').2 = some b ∧ (alloc (free st a).1 n').1.subs = st.subs ∧
      (alloc (free st a).1 n').1.segFree = st.segFree := by
  obtain ⟨g, hg⟩ := reach_inv h
  obtain ⟨w, h1, _⟩ := hg.live ha
  obtain ⟨_, ⟨g1, q1, q2, q3, q4⟩, q5⟩ := free_res hg.toGood h1
  have hr : HasRoom (free st a).1 (objSize (8 * n')) := q5.mono (by unfold objSize; unfold room at hn ⊢; omega)
  have hne := allocHere_room (by omega) hr
  rw [alloc_nat]
  unfold allocF
  cases he : allocHere (free st a).1 (8 * n') with
  | none => exact absurd he hne
  | some r =>
    obtain ⟨b, e1, g2, _, _, _, _, e2⟩ := allocHere_res q1 (by omega) he
    exact ⟨b, e1, by rw [e2.1, q4.1], by rw [e2.2.1, q4.2.1]⟩

/-! ## Fuel -/

/-- The recursion of the allocation routine always ends by itself: more than 65 rounds change nothing. -/
theorem C08_fuel {st : St} {L : Live} (h : Reach st L) (n k : Nat) : allocF (65 + k) st (8 * n) = alloc st n := by
  obtain ⟨g, hg⟩ := reach_inv h
  have key : ∀ (m : Nat) {t : St} {g : G}, Good t g → ∀ k, 64 ≤ t.subs.length + m → allocF (m + 1 + k) t (8 * n) = allocF (m + 1) t (8 * n) := by
    intro m
    induction m with
    | zero =>
      intro t g G0 k hm
      have e : 0 + 1 + k = k + 1 := by omega
      rw [e]
      unfold allocF
      split
      · rfl
      · split
        · rfl
        · rename_i t' ht
          have := (extend_res G0 ht).2.2.1
          omega
    | succ m ih =>
      intro t g G0 k hm
      have e : m + 1 + 1 + k = (m + 1 + k) + 1 := by omega
      rw [e]
      unfold allocF
      split
      · rfl
      · split
        · rfl
        · rename_i t' ht
          obtain ⟨⟨g', G1, _, _⟩, ⟨s, e1, _⟩, _, _⟩ := extend_res G0 ht
          exact ih G1 k (by rw [e1, List.length_append, List.length_singleton]; omega)
  rw [alloc_nat]
  exact key 64 hg.toGood k (by omega)

/-! ## Concrete cases and counterexamples -/

instance : Inhabited St := ⟨⟨fun _ => 0, fun _ => 0, [], 0, 0⟩⟩

theorem Reach.new' {mem : Nat → Nat} {sf ss size : Nat} (h8 : sf % 8 = 0) (h0 : 0 < sf) (h1 : sf ≤ ss) (h2 : ss ≤ 2^40)
    (h : (newArea mem sf ss size).isSome = true) : Reach (newArea mem sf ss size).get! (fun _ => none) := by
  cases e : newArea mem sf ss size with
  | none => rw [e] at h; simp at h
  | some st => exact .new h8 h0 h1 h2 e

theorem Reach.alloc' {st : St} {L : Live} (h : Reach st L) (n a : Nat) (hn : n < 2^37) (ha : (WG.Varlen.alloc st n).2 = some a) :
    Reach (WG.Varlen.alloc st n).1 (L.put a n) := .alloc h hn (Prod.ext rfl ha)

/-- A new area of 8192 bytes in a segment of 100000 bytes; an object of 100 words, one of three, and one taking the rest. -/
def x0 : St := (newArea (fun _ => 0) 1024 100000 8192).get!
def x1 : St := (alloc x0 100).1
def x2 : St := (alloc x1 3).1
def x3 : St := (alloc x2 912).1
def xL : Live := (((fun _ => none : Live) |> (Live.put · 1056 100)).put 1856 3).put 1888 912

theorem x0_reach : Reach x0 (fun _ => none) :=
  .new' (mem := fun _ => 0) (sf := 1024) (ss := 100000) (size := 8192) (by decide) (by decide) (by decide) (by decide) (by decide +kernel)

theorem x3_reach : Reach x3 xL := by
  have h1 := x0_reach.alloc' 100 1056 (by decide) (by decide +kernel)
  have h2 := h1.alloc' 3 1856 (by decide) (by decide +kernel)
  exact h2.alloc' 912 1888 (by decide) (by decide +kernel)

/-- ... and after the first is freed. -/
def x4 : St := (free x3 1056).1

theorem x4_reach : Reach x4 (xL.del 1056) := .free x3_reach rfl

/-- ... and if instead the last and then the first are freed. -/
def x5 : St := (free (free x3 1888).1 1056).1

theorem x5_reach : Reach x5 ((xL.del 1888).del 1056) := .free (.free x3_reach rfl) rfl

/-- The hypotheses of the theorems of C08, C09, C10 and C50 hold here: live objects next to each other, a victim, a block on
a free list, a freed object whose memory is used again. -/
example : xL 1856 = some 3 ∧ xL 1888 = some 912 ∧ room 3 = 32 ∧ room 912 = 7296 ∧ Avail x4 1056 800 ∧ OnList x5 257 1056 ∧
    Avail x5 1056 800 ∧ Avail x5 1888 7296 ∧ (alloc x4 96).2 = some 1056 ∧ (alloc x5 10).2 = some 1888 := by
  have h : OnList x5 257 1056 := by
    have e : x5.fb 257 = 1056 := by decide +kernel
    rw [← e]; exact .head (by rw [e]; decide)
  exact ⟨rfl, rfl, rfl, rfl, .inr ⟨by decide +kernel, by decide +kernel, by decide +kernel⟩, h, .inl ⟨257, by decide, h, by decide +kernel⟩,
    .inr ⟨by decide +kernel, by decide +kernel, by decide +kernel⟩, by decide +kernel, by decide +kernel⟩

/-- C09: the recorded size of an object of three words (a record without fields) is changed by an allocation of another object:
here from 24 bytes to 32, so that the record seems to have one field. -/
theorem C09_size_counterexample : ∃ st L a n, Reach st L ∧ L a = some 3 ∧ clr (st.mem a) = 24 ∧ (alloc st n).2 ≠ none ∧
    clr ((alloc st n).1.mem a) = 32 :=
  ⟨x4, _, 1856, 200, x4_reach, rfl, by decide +kernel, by decide +kernel, by decide +kernel⟩

/-- In a segment with no more room. -/
def y0 : St := (newArea (fun _ => 0) 1024 9217 8192).get!
def y1 : St := (alloc y0 5).1
def y2 : St := (alloc y1 1011).1
def yL : Live := ((fun _ => none : Live) |> (Live.put · 1056 5)).put 1096 1011

theorem y2_reach : Reach y2 yL := by
  have h0 : Reach y0 (fun _ => none) := .new' (mem := fun _ => 0) (sf := 1024) (ss := 9217) (size := 8192)
    (by decide) (by decide) (by decide) (by decide) (by decide +kernel)
  have h1 := h0.alloc' 5 1056 (by decide) (by decide +kernel)
  exact h1.alloc' 1011 1096 (by decide) (by decide +kernel)

/-- C10: after an object of 40 bytes is freed a request of 32 bytes fails, although nothing happened in between and
a request of 40 bytes succeeds. -/
theorem C10_reuse_counterexample : ∃ st L a, Reach st L ∧ L a = some 5 ∧ (alloc (free st a).1 4).2 = none ∧
    (alloc (free st a).1 5).2 = some a :=
  ⟨y2, yL, 1056, y2_reach, rfl, by decide +kernel, by decide +kernel⟩

end WG.Varlen
