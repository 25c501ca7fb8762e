import Verif.Varlen.FreeOp
import Mathlib.Tactic.SplitIfs
/-! `wg_alloc_gints` preserves the invariant. -/
namespace WG.Varlen

/-- Result of an allocation of `wanted` bytes at `a`. -/
def ARes (st : St) (g : G) (wanted : Nat) (st' : St) (a : Nat) : Prop :=
  ∃ g', Good st' g' ∧ Fr st g st' g' ∧ usedAt g a = none ∧ (∀ x, usedAt g' x = if x = a then some wanted else usedAt g x) ∧ SameSeg st st'

/-- The hole becomes the new object. -/
theorem finishUsed {st : St} {g : G} {a n wanted : Nat} (h : Inv st g) (hd : DvOK st g) (hb : g.blk a = some ⟨n, .hole⟩)
    (only : ∀ x m, g.blk x = some ⟨m, .hole⟩ → x = a) (hw : wanted % 8 = 0) (hn : n = objSize wanted) (hm : st.mem a = wanted)
    (hp : ∀ p q, g.blk p = some ⟨q, .free⟩ → p + q ≠ a)
    (hnx : ∀ m w', g.blk (a + n) = some ⟨m, .used w'⟩ → st.mem (a + n) = w') : ARes st g wanted st a := by
  obtain ⟨i1, f1⟩ := h.to_used hb hw hn hm hp hnx
  refine ⟨_, ⟨i1, hd.of_blk (fun _ _ => rfl) (fun x m => setK_blk_ne hb (by simp) (by simp) x m), nohole_setK (by simp) only⟩, f1,
    usedAt_of hb (by simp), fun x => usedAt_setK_used x, SameSeg.refl _⟩

theorem ARes.of {st st1 st' : St} {g g1 : G} {wanted a : Nat} (hr : ARes st1 g1 wanted st' a) (hf : Fr st g st1 g1)
    (hu : usedAt g1 = usedAt g) (hs : SameSeg st st1) : ARes st g wanted st' a := by
  obtain ⟨g', h1, h2, h3, h4, h5⟩ := hr
  exact ⟨g', h1, hf.trans h2, hu ▸ h3, hu ▸ h4, hs.trans h5⟩

theorem popFree_pre {st : St} {g : G} (G0 : Good st g) {i : Nat} (hi : i < 288) (hne : st.fb i ≠ 0) :
    ∃ n g1, g.blk (st.fb i) = some ⟨n, .free⟩ ∧ bix n = i ∧ Inv (popFree st i) g1 ∧ Fr st g (popFree st i) g1 ∧
      usedAt g1 = usedAt g ∧ SameSeg st (popFree st i) ∧ DvOK (popFree st i) g1 ∧
      (∀ x b, g1.blk x = some b ↔ (x = st.fb i ∧ b = ⟨n, .hole⟩) ∨ (x ≠ st.fb i ∧ g.blk x = some b)) ∧
      (∀ y c b, g.blk c = some b → b.kind ≠ .free → c ≤ y → y < c + b.size → (popFree st i).mem y = st.mem y) ∧
      (∀ y, (popFree st i).mem y ≠ st.mem y → ∃ x q, g.blk x = some ⟨q, .free⟩ ∧ x ≠ st.fb i ∧ (y = x + 8 ∨ y = x + 16)) := by
  obtain ⟨n, h1, h2, h3⟩ := popFree_eq G0.inv hi hne
  obtain ⟨l, i4, f4, b4, m4, s4⟩ := G0.inv.unlink h1
  rw [h3]
  refine ⟨n, _, h1, h2, i4, f4, ?_, s4, ?_, ?_, ?_, ?_⟩
  · rw [usedAt_setCh]; exact usedAt_setK (by simp) (usedAt_of h1 (by simp))
  · exact G0.dv.of_blk b4 (fun x m => setK_blk_ne h1 (by simp) (by simp) x m)
  · intro x b; exact setK_some
  · intro y c b hc hk e1 e2; exact unlink_mem G0.inv h1 hc hk e1 e2
  · intro y hy
    obtain ⟨x, q, e1, e2⟩ := m4 y hy
    refine ⟨x, q, e1, ?_, e2⟩
    rintro rfl
    -- the removed block itself is not written
    obtain ⟨l1, l2, hl⟩ := List.append_of_mem ((G0.inv.cont.mem_ch _ (bix_lt (G0.inv.size_lt h1)) _).2 ⟨n, h1, rfl⟩)
    obtain ⟨mem', fb', he, hfb, hmem⟩ := unlinkFree_spec G0.inv h1 hl
    rw [he] at hy
    have hi2 : bix n < 288 := by omega
    obtain ⟨_, _, e3⟩ := G0.inv.cont.list _ hi2
    have far : ∀ z ∈ l1 ++ l2, z ≠ st.fb i ∧ ∃ q, g.blk z = some ⟨q, .free⟩ := by
      intro z hz
      rw [hl] at e3
      have hz2 : z ∈ g.ch (bix n) := by rw [hl]; simp at hz ⊢; tauto
      obtain ⟨q, h5, _⟩ := (G0.inv.cont.mem_ch _ hi2 z).1 hz2
      refine ⟨?_, q, h5⟩
      rintro rfl
      rw [List.nodup_append] at e3
      simp only [List.mem_append] at hz
      rcases hz with hz | hz
      · exact e3.2.2 _ hz (st.fb i) (by simp) rfl
      · have := e3.2.1; simp [hz] at this
    have key : ∀ z ∈ l1 ++ l2, ∀ u, (u = 8 ∨ u = 16) → z + u ≠ y := by
      intro z hz u hu e
      obtain ⟨h6, q', h7⟩ := far z hz
      have := G0.inv.geo.apart h7 h1 h6
      omega
    apply hy
    show mem' y = st.mem y
    rw [hmem, if_neg, if_neg]
    · intro h6
      simp only [Option.map_eq_some_iff] at h6
      obtain ⟨z, hz, h7⟩ := h6
      exact key z (by simp [List.mem_of_mem_getLast? hz]) 8 (by simp) h7
    · intro h6
      simp only [Option.map_eq_some_iff] at h6
      obtain ⟨z, hz, h7⟩ := h6
      exact key z (by simp [List.mem_of_mem_head? hz]) 16 (by simp) h7

theorem takeWhole_res {st : St} {g : G} (G0 : Good st g) {wanted i : Nat} (hw : wanted % 8 = 0) (hi : i < 288) (hne : st.fb i ≠ 0)
    (hsz : g.blk (st.fb i) = some ⟨objSize wanted, .free⟩) :
    (takeWhole st wanted (objSize wanted) i).2 = some (st.fb i) ∧
    ARes st g wanted (takeWhole st wanted (objSize wanted) i).1 (st.fb i) := by
  obtain ⟨n, g1, h1, h2, i1, f1, u1, s1, d1, hg1, m1, _⟩ := popFree_pre G0 hi hne
  rw [hsz] at h1; injection h1 with h1; injection h1 with h1; subst h1
  refine ⟨rfl, ?_⟩
  unfold takeWhole
  simp only
  have al := G0.inv.geo.al _ _ hsz
  simp only at al
  have hm : mkPrevUsed wanted = wanted := clr_self hw
  rw [hm]
  generalize st.fb i = a at *
  generalize hon : objSize wanted = n at *
  have b1 : g1.blk a = some ⟨n, .hole⟩ := (hg1 _ _).2 (.inl ⟨rfl, rfl⟩)
  have only1 : ∀ x m, g1.blk x = some ⟨m, .hole⟩ → x = a := by
    intro x m h
    rcases (hg1 _ _).1 h with ⟨e, _⟩ | ⟨_, e⟩
    · exact e
    · exact absurd e (G0.nohole _ _)
  obtain ⟨i2, f2⟩ := i1.hole_write b1 (x := a) (v := wanted) (by omega) (by omega)
  obtain ⟨_, k1, k2, k3, k4, k5, k6⟩ := i2.mark b1 (by intro m h; have := only1 _ _ h; omega)
  refine ARes.of (finishUsed k1 (d1.of_blk (fun j _ => by rw [k4]; rfl) (fun _ _ => Iff.rfl)) b1 only1 hw hon.symm
    (by rw [k6 _ (by omega)]; exact upd_self _ _ _) ?_ k5) ((f1.trans f2).trans k2) u1 (s1.trans (SameSeg.trans ⟨rfl, rfl, rfl⟩ k3))
  intro p q h e
  rcases (hg1 _ _).1 h with ⟨_, e⟩ | ⟨_, e'⟩
  · simp at e
  · exact G0.inv.cont.adj p _ _ e' (by rw [e]; exact hsz) (.inl rfl) (.inl rfl)

theorem split_some {g : G} {a n m x : Nat} {b : Blk} (hn : 0 < n) : (g.split a n m).blk x = some b ↔
    (x = a ∧ b = ⟨n, .hole⟩) ∨ (x = a + n ∧ b = ⟨m, .hole⟩) ∨ (x ≠ a ∧ x ≠ a + n ∧ g.blk x = some b) := by
  constructor
  · exact Geo.split_fwd
  · rintro (⟨rfl, rfl⟩ | ⟨rfl, rfl⟩ | ⟨h1, h2, h3⟩)
    · simp only [G.split, setB_self]
    · simp only [G.split]; rw [setB_ne (by omega), setB_self]
    · simp only [G.split]; rw [setB_ne h1, setB_ne h2]; exact h3

theorem usedAt_split {g : G} {a n m s : Nat} (hn : 0 < n) (h1 : g.blk a = some ⟨s, .hole⟩)
    (h2 : g.blk (a + n) = none) : usedAt (g.split a n m) = usedAt g := by
  funext x
  by_cases hx : x = a
  · subst hx; rw [usedAt_of h1 (by simp)]; unfold usedAt; simp [G.split, setB_self]
  · by_cases hx2 : x = a + n
    · subst hx2; unfold usedAt; rw [h2]; simp only [G.split]; rw [setB_ne hx, setB_self]
    · unfold usedAt; simp only [G.split]; rw [setB_ne hx, setB_ne hx2]

theorem Geo.inside_none {subs : List Sub} {B : Nat → Option Blk} (h : Geo subs B) {a x : Nat} {b : Blk} (hb : B a = some b)
    (h1 : a < x) (h2 : x < a + b.size) : B x = none := by
  cases hc : B x with
  | none => rfl
  | some c =>
    have := h.disj a b x c hb hc h1
    omega

theorem takeSplit_res {st : St} {g : G} (G0 : Good st g) {wanted i s : Nat} (hw : wanted % 8 = 0) (hi : i < 288) (hne : st.fb i ≠ 0)
    (hsz : g.blk (st.fb i) = some ⟨s, .free⟩) (hs : objSize wanted + 32 ≤ s) :
    (takeSplit st wanted i).2 = some (st.fb i) ∧ ARes st g wanted (takeSplit st wanted i).1 (st.fb i) := by
  obtain ⟨n, g1, h1, h2, i1, f1, u1, s1, d1, hg1, m1, m1'⟩ := popFree_pre G0 hi hne
  rw [hsz] at h1; injection h1 with h1; injection h1 with h1; subst h1
  have al := G0.inv.geo.al _ _ hsz
  have alo := objSize_al hw
  simp only at al
  have hfree := G0.inv.cont.free _ _ hsz
  have hfr : isFree (st.mem (st.fb i)) = true := by rw [hfree.1]; simp [isFree]; omega
  have hcl : clr (st.mem (st.fb i)) = s := by rw [hfree.1]; exact clr_of al.2.1 (by omega)
  have hmk : mkPrevUsed wanted = wanted := clr_self hw
  have hmk2 : mkPrevUsed (objSize wanted) = objSize wanted := clr_self alo.1
  -- the state before the remainder is stored
  have hsf : splitFree st (usedBytes wanted) i =
      some (pushFree ((popFree st i).store (st.fb i) (objSize wanted)) (st.fb i + objSize wanted) (s - objSize wanted)) := by
    unfold splitFree
    simp only
    rw [usedBytes_eq hw, hfr, hcl, hmk2]
    simp only [Bool.not_true, Bool.false_eq_true, if_false]
    congr 1
    congr 1
    unfold popFree
    simp only
    by_cases h0 : st.mem (st.fb i + 8) = 0
    · rw [if_neg (by omega), if_neg (by omega)]; rfl
    · rw [if_pos h0, if_pos h0]
      have hns : st.mem (st.fb i + 8) + 16 ≠ st.fb i := by
        intro e
        -- the next free block is elsewhere
        obtain ⟨l1, l2, hl⟩ := List.append_of_mem ((G0.inv.cont.mem_ch _ (bix_lt (G0.inv.size_lt hsz)) _).2 ⟨s, hsz, rfl⟩)
        have hi2 : bix s < 288 := by omega
        obtain ⟨_, e4, e3⟩ := G0.inv.cont.list _ hi2
        rw [hl] at e4 e3
        obtain ⟨q1, _⟩ := DL_at e4
        rw [q1] at h0 e
        cases l2 with
        | nil => simp at h0
        | cons b l2 =>
          simp only [List.headD_cons] at e
          obtain ⟨q, hq, _⟩ := (G0.inv.cont.mem_ch _ hi2 b).1 (by rw [hl]; simp)
          have := G0.inv.geo.al _ _ hq
          obtain ⟨hx, _⟩ := G0.inv.geo.eq_of_overlap hq hsz (x := st.fb i) (by omega) (by simp only at this ⊢; omega) (by omega) (by simp only; omega)
          omega
      show (St.mk _ _ _ _ _) = St.mk _ _ _ _ _
      congr 1
      funext y
      show upd (upd st.mem _ _) _ _ y = upd (upd st.mem _ _) _ _ y
      unfold upd
      split_ifs <;> first | rfl | omega
  unfold takeSplit
  simp only
  rw [hsf]
  refine ⟨rfl, ?_⟩
  simp only
  rw [hmk]
  generalize st.fb i = a at *
  generalize hon : objSize wanted = n at *
  have b1 : g1.blk a = some ⟨s, .hole⟩ := (hg1 _ _).2 (.inl ⟨rfl, rfl⟩)
  obtain ⟨i2, f2⟩ := i1.hole_write b1 (x := a) (v := n) (by omega) (by omega)
  have hsplit : s = n + (s - n) := by omega
  obtain ⟨i3, f3⟩ := i2.split (a := a) (n := n) (m := s - n) (by rw [← hsplit]; exact b1) alo.1 (by omega) (by omega) (by omega)
  have nn : g1.blk (a + n) = none := i1.geo.inside_none b1 (by omega) (by simp only; omega)
  have u3 := usedAt_split (m := s - n) (by omega) b1 nn
  have hg3 : ∀ x b, (g1.split a n (s - n)).blk x = some b ↔ _ := fun x b => split_some (by omega)
  generalize g1.split a n (s - n) = g3 at *
  have a3 : g3.blk a = some ⟨n, .hole⟩ := (hg3 _ _).2 (.inl ⟨rfl, rfl⟩)
  have c3 : g3.blk (a + n) = some ⟨s - n, .hole⟩ := (hg3 _ _).2 (.inr (.inl ⟨rfl, rfl⟩))
  have back3 : ∀ x m k, k ≠ .hole → g3.blk x = some ⟨m, k⟩ → g.blk x = some ⟨m, k⟩ ∧ x ≠ a := by
    intro x m k hk h
    rcases (hg3 _ _).1 h with ⟨_, e⟩ | ⟨_, e⟩ | ⟨e1, e2, e3⟩
    · injection e with _ e; exact absurd e hk
    · injection e with _ e; exact absurd e hk
    · rcases (hg1 _ _).1 e3 with ⟨e, _⟩ | ⟨_, e⟩
      · exact absurd e e1
      · exact ⟨e, e1⟩
  have only3 : ∀ x m, g3.blk x = some ⟨m, .hole⟩ → x = a ∨ x = a + n := by
    intro x m h
    rcases (hg3 _ _).1 h with ⟨e, _⟩ | ⟨e, _⟩ | ⟨e1, e2, e3⟩
    · exact .inl e
    · exact .inr e
    · rcases (hg1 _ _).1 e3 with ⟨e, _⟩ | ⟨_, e⟩
      · exact absurd e e1
      · exact absurd e (G0.nohole _ _)
  have hend : a + n + (s - n) = a + s := by omega
  have pred3 : ∀ p q, g3.blk p = some ⟨q, .free⟩ ∨ g3.blk p = some ⟨q, .dv⟩ → p + q ≠ a + n := by
    rintro p q (h | h) e
    · have := i3.geo.pred_unique h a3 e
      simp at this
    · have := i3.geo.pred_unique h a3 e
      simp at this
  obtain ⟨i4, f4⟩ := i3.push c3 pred3
    (fun m => by
      rw [hend]
      constructor
      · intro h; exact G0.inv.cont.adj _ _ _ hsz (back3 _ _ _ (by simp) h).1 (.inl rfl) (.inl rfl)
      · intro h; exact G0.inv.cont.adj _ _ _ hsz (back3 _ _ _ (by simp) h).1 (.inl rfl) (.inr rfl))
    (fun m w' h => by
      rw [hend] at h ⊢
      have h5 := (back3 _ _ _ (by simp) h).1
      have al5 := G0.inv.geo.al _ _ h5
      simp only at al5
      show upd _ _ _ _ = _
      rw [upd_ne (by omega), m1 _ _ _ h5 (by simp) (by omega) (by simp only; omega)]
      exact G0.inv.cont.flag_up _ _ _ _ hsz h5)
  have hi4 : bix (s - n) < 288 := bix_lt (i3.size_lt c3)
  have sp := pushFree_seg ((popFree st i).store a n) (a + n) (s - n)
  have fbp := pushFree_fb ((popFree st i).store a n) (a + n) (s - n)
  generalize pushFree ((popFree st i).store a n) (a + n) (s - n) = t at *
  have hg4 : ∀ x b, ((g3.setK (a + n) (s - n) .free).setCh (bix (s - n)) ((a + n) :: g3.ch (bix (s - n)))).blk x = some b ↔
    (x = a + n ∧ b = ⟨s - n, .free⟩) ∨ (x ≠ a + n ∧ g3.blk x = some b) := fun x b => setK_some
  have u4 : usedAt ((g3.setK (a + n) (s - n) .free).setCh (bix (s - n)) ((a + n) :: g3.ch (bix (s - n)))) = usedAt g3 := by
    rw [usedAt_setCh]; exact usedAt_setK (by simp) (usedAt_of c3 (by simp))
  generalize ((g3.setK (a + n) (s - n) .free).setCh (bix (s - n)) ((a + n) :: g3.ch (bix (s - n)))) = g4 at *
  have a4 : g4.blk a = some ⟨n, .hole⟩ := (hg4 _ _).2 (.inr ⟨by omega, a3⟩)
  obtain ⟨i5, f5⟩ := i4.hole_write a4 (x := a) (v := wanted) (by omega) (by omega)
  have dok : DvOK (t.store a wanted) g4 := by
    refine d1.of_blk ?_ ?_
    · intro j hj
      show t.fb j = _
      rw [fbp, if_neg (by omega)]; rfl
    · intro x m
      constructor
      · intro h
        rcases (hg4 _ _).1 h with ⟨_, e⟩ | ⟨_, e⟩
        · simp at e
        · have := back3 _ _ _ (by simp) e
          exact (hg1 _ _).2 (.inr ⟨this.2, this.1⟩)
      · intro h
        rcases (hg1 _ _).1 h with ⟨_, e⟩ | ⟨e1, e2⟩
        · simp at e
        · have : x ≠ a + n := by rintro rfl; rw [nn] at h; simp at h
          exact (hg4 _ _).2 (.inr ⟨this, (hg3 _ _).2 (.inr (.inr ⟨e1, this, h⟩))⟩)
  refine ARes.of (finishUsed i5 dok a4 ?_ hw hon.symm (upd_self _ _ _) ?_ ?_) ((((f1.trans f2).trans f3).trans f4).trans f5)
    ((u4.trans u3).trans u1) (s1.trans (SameSeg.trans ⟨rfl, rfl, rfl⟩ (sp.trans ⟨rfl, rfl, rfl⟩)))
  · intro x m h
    rcases (hg4 _ _).1 h with ⟨_, e⟩ | ⟨e1, e2⟩
    · simp at e
    · rcases only3 _ _ e2 with e | e
      · exact e
      · exact absurd e e1
  · intro p q h e
    rcases (hg4 _ _).1 h with ⟨e1, e2⟩ | ⟨_, e2⟩
    · injection e2 with e2; omega
    · exact G0.inv.cont.adj _ _ _ (back3 _ _ _ (by simp) e2).1 (by rw [e]; exact hsz) (.inl rfl) (.inl rfl)
  · intro m w' h
    rcases (hg4 _ _).1 h with ⟨_, e2⟩ | ⟨e1, _⟩
    · simp at e2
    · exact absurd rfl e1

theorem takeDv_res {st : St} {g : G} (G0 : Good st g) {wanted : Nat} (hw : wanted % 8 = 0) {st' : St} {a : Nat}
    (h : takeDv st wanted = some (st', a)) : ARes st g wanted st' a := by
  unfold takeDv at h
  simp only at h
  rw [usedBytes_eq hw] at h
  have alo := objSize_al hw
  have hmk : mkPrevUsed wanted = wanted := clr_self hw
  by_cases hc : objSize wanted ≤ st.fb DVSIZE ∧ st.fb DV ≠ 0
  · rw [if_pos hc] at h
    rcases G0.dv with ⟨d1, _, _⟩ | ⟨d1, d2⟩
    · exact absurd d1 hc.2
    have al := G0.inv.geo.al _ _ d1
    simp only at al
    have i1 := G0.inv.to_hole d1 (by simp)
    have f1 : Fr st g st _ := Fr.to_hole d1 (by simp)
    have u1 : usedAt (g.setK (st.fb DV) (st.fb DVSIZE) .hole) = usedAt g := usedAt_setK (by simp) (usedAt_of d1 (by simp))
    have hg1 : ∀ x b, (g.setK (st.fb DV) (st.fb DVSIZE) .hole).blk x = some b ↔
      (x = st.fb DV ∧ b = ⟨st.fb DVSIZE, .hole⟩) ∨ (x ≠ st.fb DV ∧ g.blk x = some b) := fun x b => setK_some
    have nx := fun m w' => flag_off G0.inv d1 (by simp) (m := m) (w := w')
    simp only at nx
    have prf : ∀ p q, g.blk p = some ⟨q, .free⟩ → p + q ≠ st.fb DV := by
      intro p q h e; exact G0.inv.cont.adj p _ _ h (by rw [e]; exact d1) (.inl rfl) (.inr rfl)
    generalize st.fb DV = d at *
    generalize st.fb DVSIZE = ds at *
    generalize g.setK d ds .hole = g1 at *
    have b1 : g1.blk d = some ⟨ds, .hole⟩ := (hg1 _ _).2 (.inl ⟨rfl, rfl⟩)
    have back1 : ∀ x m k, k ≠ .hole → g1.blk x = some ⟨m, k⟩ → g.blk x = some ⟨m, k⟩ ∧ x ≠ d := by
      intro x m k hk h
      rcases (hg1 _ _).1 h with ⟨_, e⟩ | ⟨e1, e2⟩
      · injection e with _ e; exact absurd e hk
      · exact ⟨e2, e1⟩
    have only1 : ∀ x m, g1.blk x = some ⟨m, .hole⟩ → x = d := by
      intro x m h
      rcases (hg1 _ _).1 h with ⟨e, _⟩ | ⟨e1, e2⟩
      · exact e
      · exact absurd e2 (G0.nohole _ _)
    have nodv1 : ∀ x m, g1.blk x ≠ some ⟨m, .dv⟩ := by
      intro x m h
      have := back1 _ _ _ (by simp) h
      exact this.2 (d2 _ _ this.1)
    by_cases he : objSize wanted = ds
    · rw [if_pos he] at h
      injection h with h; injection h with h1 h2; subst h2
      rw [hmk] at h1
      subst h1
      have i2 : Inv ((st.setFb DV 0).setFb DVSIZE 0) g1 := (i1.setFbHi (by decide)).setFbHi (by decide)
      have f2 : Fr st g1 ((st.setFb DV 0).setFb DVSIZE 0) g1 := Fr.setFb.trans Fr.setFb
      obtain ⟨i3, f3⟩ := i2.hole_write b1 (x := d) (v := wanted) (by omega) (by omega)
      refine ARes.of (finishUsed i3 ?_ b1 only1 hw he.symm (upd_self _ _ _) ?_ ?_) ((f1.trans f2).trans f3) u1 ⟨rfl, rfl, rfl⟩
      · refine .inl ⟨?_, ?_, nodv1⟩
        · show upd (upd st.fb DV 0) DVSIZE 0 DV = 0; rw [upd_ne (by decide), upd_self]
        · show upd (upd st.fb DV 0) DVSIZE 0 DVSIZE = 0; rw [upd_self]
      · intro p q h; exact prf p q (back1 _ _ _ (by simp) h).1
      · intro m w' h
        show upd st.mem _ _ _ = _
        rw [upd_ne (by omega)]
        exact nx m w' (back1 _ _ _ (by simp) h).1
    · rw [if_neg he] at h
      by_cases he2 : objSize wanted + MINSZ ≤ ds
      · rw [if_pos he2] at h
        unfold MINSZ at he2
        injection h with h; injection h with h1 h2; subst h2
        rw [hmk] at h1
        generalize hon : objSize wanted = n at *
        have hsplit : ds = n + (ds - n) := by omega
        obtain ⟨i2, f2⟩ := i1.split (a := d) (n := n) (m := ds - n) (by rw [← hsplit]; exact b1) alo.1 (by omega) (by omega) (by omega)
        have nn : g1.blk (d + n) = none := i1.geo.inside_none b1 (by omega) (by simp only; omega)
        have u2 := usedAt_split (m := ds - n) (by omega) b1 nn
        have hg2 : ∀ x b, (g1.split d n (ds - n)).blk x = some b ↔ _ := fun x b => split_some (by omega)
        generalize g1.split d n (ds - n) = g2 at *
        have a2 : g2.blk d = some ⟨n, .hole⟩ := (hg2 _ _).2 (.inl ⟨rfl, rfl⟩)
        have c2 : g2.blk (d + n) = some ⟨ds - n, .hole⟩ := (hg2 _ _).2 (.inr (.inl ⟨rfl, rfl⟩))
        have back2 : ∀ x m k, k ≠ .hole → g2.blk x = some ⟨m, k⟩ → g.blk x = some ⟨m, k⟩ ∧ x ≠ d := by
          intro x m k hk h
          rcases (hg2 _ _).1 h with ⟨_, e⟩ | ⟨_, e⟩ | ⟨e1, e2, e3⟩
          · injection e with _ e; exact absurd e hk
          · injection e with _ e; exact absurd e hk
          · exact back1 _ _ _ hk e3
        have only2 : ∀ x m, g2.blk x = some ⟨m, .hole⟩ → x = d ∨ x = d + n := by
          intro x m h
          rcases (hg2 _ _).1 h with ⟨e, _⟩ | ⟨e, _⟩ | ⟨e1, e2, e3⟩
          · exact .inl e
          · exact .inr e
          · exact .inl (only1 _ _ e3)
        have hend : d + n + (ds - n) = d + ds := by omega
        obtain ⟨i3, f3, m1, m2, m3⟩ := i2.storeDv c2
        have i4 : Inv (((storeDv st (d + n) (ds - n)).setFb DV (d + n)).setFb DVSIZE (ds - n)) g2 := (i3.setFbHi (by decide)).setFbHi (by decide)
        have f4 : Fr (storeDv st (d + n) (ds - n)) g2 (((storeDv st (d + n) (ds - n)).setFb DV (d + n)).setFb DVSIZE (ds - n)) g2 := Fr.setFb.trans Fr.setFb
        obtain ⟨r1, r2, r3, r4⟩ := finishDv i4 c2 (fun x m h => by
            have := back2 _ _ _ (by simp) h
            exact this.2 (d2 _ _ this.1))
          (fun p q h e => by
            have := i2.geo.pred_unique h a2 e
            simp at this)
          (fun m h => by
            rw [hend] at h
            exact G0.inv.cont.adj _ _ _ d1 (back2 _ _ _ (by simp) h).1 (.inr rfl) (.inl rfl))
          (fun m w' h => by
            show (storeDv st (d + n) (ds - n)).mem _ = _
            rw [m3 _ (by omega)]
            rw [hend] at h ⊢
            exact nx _ _ (back2 _ _ _ (by simp) h).1)
          m1 m2
          (by show upd (upd st.fb DV (d + n)) DVSIZE (ds - n) DV = _; rw [upd_ne (by decide), upd_self])
          (by show upd (upd st.fb DV (d + n)) DVSIZE (ds - n) DVSIZE = _; rw [upd_self])
        have hst : st' = (((storeDv st (d + n) (ds - n)).setFb DV (d + n)).setFb DVSIZE (ds - n)).store d wanted := h1.symm
        have sg : SameSeg st (((storeDv st (d + n) (ds - n)).setFb DV (d + n)).setFb DVSIZE (ds - n)) := ⟨rfl, rfl, rfl⟩
        rw [hst]
        generalize (((storeDv st (d + n) (ds - n)).setFb DV (d + n)).setFb DVSIZE (ds - n)) = t at *
        have hg3 : ∀ x b, (g2.setK (d + n) (ds - n) .dv).blk x = some b ↔
          (x = d + n ∧ b = ⟨ds - n, .dv⟩) ∨ (x ≠ d + n ∧ g2.blk x = some b) := fun x b => setK_some
        generalize g2.setK (d + n) (ds - n) .dv = g3 at *
        have a3 : g3.blk d = some ⟨n, .hole⟩ := (hg3 _ _).2 (.inr ⟨by omega, a2⟩)
        obtain ⟨i5, f5⟩ := r1.hole_write a3 (x := d) (v := wanted) (by omega) (by omega)
        refine ARes.of (finishUsed i5 (r4.of_blk (fun _ _ => rfl) (fun _ _ => Iff.rfl)) a3 ?_ hw hon.symm (upd_self _ _ _) ?_ ?_)
          (((((f1.trans f2).trans f3).trans f4).trans r2).trans f5) ((r3.trans u2).trans u1) (sg.trans ⟨rfl, rfl, rfl⟩)
        · intro x m h
          rcases (hg3 _ _).1 h with ⟨_, e⟩ | ⟨e1, e2⟩
          · simp at e
          · rcases only2 _ _ e2 with e | e
            · exact e
            · exact absurd e e1
        · intro p q h
          rcases (hg3 _ _).1 h with ⟨_, e⟩ | ⟨e1, e2⟩
          · simp at e
          · exact prf p q (back2 _ _ _ (by simp) e2).1
        · intro m w' h
          rcases (hg3 _ _).1 h with ⟨_, e⟩ | ⟨e1, e2⟩
          · simp at e
          · exact absurd rfl e1
      · rw [if_neg he2] at h; cases h
  · rw [if_neg hc] at h; cases h

theorem findExact_some {st : St} {used : Nat} : ∀ {k i j : Nat}, findExact st used k i = some j →
    i ≤ j ∧ j < 256 ∧ st.fb j ≠ 0 ∧ clr (st.mem (st.fb j)) ≥ used + 32 := by
  intro k
  induction k with
  | zero => intro i j h; cases h
  | succ k ih =>
    intro i j h
    unfold findExact at h
    split_ifs at h with h1 h2
    · injection h with h; subst h; exact ⟨Nat.le_refl _, h1, h2.1, h2.2⟩
    · have := ih h; exact ⟨by omega, this.2⟩

theorem findVar_some {st : St} {used : Nat} : ∀ {k i j : Nat}, findVar st used k i = some j →
    i ≤ j ∧ j < 288 ∧ st.fb j ≠ 0 ∧ (clr (st.mem (st.fb j)) = used ∨ clr (st.mem (st.fb j)) ≥ used + 32) := by
  intro k
  induction k with
  | zero => intro i j h; cases h
  | succ k ih =>
    intro i j h
    unfold findVar at h
    split_ifs at h with h1 h2
    · injection h with h; subst h; exact ⟨Nat.le_refl _, h1, h2.1, h2.2⟩
    · have := ih h; exact ⟨by omega, this.2⟩

/-- Head of a nonempty list. -/
theorem Inv.head {st : St} {g : G} (h : Inv st g) {i : Nat} (hi : i < 288) (hne : st.fb i ≠ 0) :
    ∃ n, g.blk (st.fb i) = some ⟨n, .free⟩ ∧ bix n = i ∧ clr (st.mem (st.fb i)) = n := by
  obtain ⟨n, h1, h2, _⟩ := popFree_eq h hi hne
  have al := h.geo.al _ _ h1
  exact ⟨n, h1, h2, by rw [(h.cont.free _ _ h1).1]; exact clr_of al.2.1 (by omega)⟩

theorem allocHere_res {st : St} {g : G} (G0 : Good st g) {wanted : Nat} (hw : wanted % 8 = 0) {r : St × Option Nat}
    (h : allocHere st wanted = some r) : ∃ a, r.2 = some a ∧ ARes st g wanted r.1 a := by
  have split : ∀ i, i < 288 → st.fb i ≠ 0 → clr (st.mem (st.fb i)) ≥ objSize wanted + 32 →
      ∃ a, (takeSplit st wanted i).2 = some a ∧ ARes st g wanted (takeSplit st wanted i).1 a := by
    intro i hi hne hs
    obtain ⟨n, h1, h2, h3⟩ := G0.inv.head hi hne
    rw [h3] at hs
    exact ⟨_, takeSplit_res G0 hw hi hne h1 hs⟩
  unfold allocHere at h
  simp only at h
  rw [usedBytes_eq hw] at h
  split_ifs at h with h1
  · injection h with h; subst h
    have hi : objSize wanted < 256 := h1.1
    obtain ⟨n, e1, e2, e3⟩ := G0.inv.head (by omega) h1.2
    have hn : n = objSize wanted := by
      rcases Nat.lt_or_ge n 256 with h5 | h5
      · rw [bix_small h5] at e2; exact e2
      · obtain ⟨k, _, k2, _⟩ := bix_big h5 (G0.inv.size_lt e1); omega
    subst hn
    exact ⟨_, takeWhole_res G0 hw (by omega) h1.2 e1⟩
  · split at h
    · rename_i i hi
      injection h with h; subst h
      obtain ⟨_, e2, e3, e4⟩ := findExact_some hi
      exact split i (by omega) e3 e4
    · split at h
      · rename_i st1 a hd
        injection h with h; subst h
        exact ⟨a, rfl, takeDv_res G0 hw hd⟩
      · split at h
        · rename_i i hi
          injection h with h; subst h
          obtain ⟨_, e2, e3, e4⟩ := findExact_some hi
          exact split i (by omega) e3 e4
        · split at h
          · rename_i i hi
            obtain ⟨_, e2, e3, e4⟩ := findVar_some hi
            split_ifs at h with h5
            · injection h with h; subst h
              obtain ⟨n, q1, q2, q3⟩ := G0.inv.head e2 e3
              rw [q3] at h5; subst h5
              exact ⟨_, takeWhole_res G0 hw e2 e3 q1⟩
            · injection h with h; subst h
              exact split i e2 e3 (by rcases e4 with e4 | e4
                                      · exact absurd e4 h5
                                      · exact e4)
          · cases h

end WG.Varlen
