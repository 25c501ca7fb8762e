import Verif.Varlen.Lists
/-! `wg_free_object` preserves the invariant. -/
namespace WG.Varlen

/-- Wanted size of the live object at `x`, if there is one. -/
def usedAt (g : G) (x : Nat) : Option Nat :=
  match g.blk x with
  | some ⟨_, .used w⟩ => some w
  | _ => none

theorem usedAt_some {g : G} {x w : Nat} : usedAt g x = some w ↔ ∃ n, g.blk x = some ⟨n, .used w⟩ := by
  unfold usedAt
  constructor
  · intro h
    split at h
    · rename_i n w' e; injection h with h; subst h; exact ⟨n, e⟩
    · cases h
  · rintro ⟨n, h⟩; rw [h]

theorem usedAt_setK {g : G} {a n : Nat} {k : Kind} (hk : ∀ w, k ≠ .used w) (ha : usedAt g a = none) :
    usedAt (g.setK a n k) = usedAt g := by
  funext x
  by_cases hx : x = a
  · subst hx
    rw [ha]; unfold usedAt; simp only [G.setK, setB_self]
    cases k with
    | used w => exact absurd rfl (hk w)
    | _ => rfl
  · unfold usedAt; simp only [G.setK, setB_ne hx]

theorem usedAt_setK_used {g : G} {a n w : Nat} (x : Nat) :
    usedAt (g.setK a n (.used w)) x = if x = a then some w else usedAt g x := by
  by_cases hx : x = a
  · subst hx; unfold usedAt; simp only [G.setK, setB_self, if_true]
  · unfold usedAt; simp only [G.setK, setB_ne hx, if_neg hx]

theorem usedAt_setK_hole {g : G} {a n : Nat} (x : Nat) :
    usedAt (g.setK a n .hole) x = if x = a then none else usedAt g x := by
  by_cases hx : x = a
  · subst hx; unfold usedAt; simp only [G.setK, setB_self, if_true]
  · unfold usedAt; simp only [G.setK, setB_ne hx, if_neg hx]

theorem usedAt_setCh {g : G} {i : Nat} {l : List Nat} : usedAt (g.setCh i l) = usedAt g := rfl

theorem usedAt_of {g : G} {a n : Nat} {k : Kind} (h : g.blk a = some ⟨n, k⟩) (hk : ∀ w, k ≠ .used w) : usedAt g a = none := by
  unfold usedAt; rw [h]
  cases k with
  | used w => exact absurd rfl (hk w)
  | _ => rfl

theorem merge_some {g : G} {a n m x : Nat} {b : Blk} : (g.merge a n m).blk x = some b ↔
    (x = a ∧ b = ⟨n + m, .hole⟩) ∨ (x ≠ a ∧ x ≠ a + n ∧ g.blk x = some b) := by
  by_cases hx : x = a
  · subst hx; simp [G.merge, setB_self, eq_comm]
  · by_cases hx2 : x = a + n
    · subst hx2; simp only [G.merge]; rw [setB_ne hx, setB_self]; simp; intro h0; omega
    · simp only [G.merge]; rw [setB_ne hx, setB_ne hx2]; simp [hx, hx2]

theorem usedAt_merge {g : G} {a n m : Nat} {k k' : Kind} (h1 : g.blk a = some ⟨n, k⟩) (hk : ∀ w, k ≠ .used w)
    (h2 : g.blk (a + n) = some ⟨m, k'⟩) (hk' : ∀ w, k' ≠ .used w) :
    usedAt (g.merge a n m) = usedAt g := by
  funext x
  by_cases hx : x = a
  · subst hx; rw [usedAt_of h1 hk]; unfold usedAt; simp [G.merge, setB_self]
  · by_cases hx2 : x = a + n
    · subst hx2; rw [usedAt_of h2 hk']; unfold usedAt; simp only [G.merge]; rw [setB_ne hx, setB_self]
    · unfold usedAt; simp only [G.merge]; rw [setB_ne hx, setB_ne hx2]

/-- Everything but memory and `freebuckets`. -/
def SameSeg (st st' : St) : Prop := st'.subs = st.subs ∧ st'.segFree = st.segFree ∧ st'.segSize = st.segSize

theorem SameSeg.refl (st : St) : SameSeg st st := ⟨rfl, rfl, rfl⟩
theorem SameSeg.trans {a b c : St} (h : SameSeg a b) (h' : SameSeg b c) : SameSeg a c :=
  ⟨h'.1.trans h.1, h'.2.1.trans h.2.1, h'.2.2.trans h.2.2⟩

theorem Inv.setFbHi {st : St} {g : G} (h : Inv st g) {i v : Nat} (hi : 288 ≤ i) : Inv (st.setFb i v) g := by
  refine ⟨h.geo, ⟨h.cont.toCore, ?_, h.cont.mem_ch⟩, h.chunk, h.segAl⟩
  intro j hj
  show upd st.fb i v j = _ ∧ _
  rw [upd_ne (by omega)]
  exact h.cont.list j hj

theorem Fr.setFb {st : St} {g : G} {i v : Nat} : Fr st g (st.setFb i v) g := fun _ h => ⟨rfl, h⟩

theorem setK_same {g : G} {a n : Nat} {k : Kind} (h : g.blk a = some ⟨n, k⟩) : g.setK a n k = g := by
  unfold G.setK
  have : setB g.blk a (some ⟨n, k⟩) = g.blk := by
    funext x
    by_cases hx : x = a
    · subst hx; rw [setB_self, h]
    · rw [setB_ne hx]
  rw [this]

/-- What follows a block. -/
theorem Inv.succ {st : St} {g : G} (h : Inv st g) {a : Nat} {b : Blk} (hb : g.blk a = some b) :
    (st.mem (a + b.size) = 35 ∧ g.blk (a + b.size) = none) ∨ ∃ m k, g.blk (a + b.size) = some ⟨m, k⟩ := by
  rcases h.geo.next a b hb with ⟨s, hs, h1⟩ | ⟨c, hc⟩
  · refine .inl ⟨by rw [h1]; exact (h.cont.marker s hs).2, ?_⟩
    cases hc : g.blk (a + b.size) with
    | none => rfl
    | some c =>
      have := (h.geo.marker_out hs hc).2
      have h3 := h.geo.al _ _ hc
      omega
  · exact .inr ⟨c.size, c.kind, hc⟩

/-- Marking the follower of a hole. `up` tells which of the two flags. -/
theorem Inv.mark {st : St} {g : G} (h : Inv st g) {a n : Nat} (hb : g.blk a = some ⟨n, .hole⟩)
    (hs : ∀ m, g.blk (a + n) ≠ some ⟨m, .hole⟩) :
    (Inv (markPrevFree st (a + n)) g ∧ Fr st g (markPrevFree st (a + n)) g ∧ SameSeg st (markPrevFree st (a + n)) ∧
      (markPrevFree st (a + n)).fb = st.fb ∧
      (∀ m w, g.blk (a + n) = some ⟨m, .used w⟩ → (markPrevFree st (a + n)).mem (a + n) = w + 2) ∧
      (∀ y, y ≠ a + n → (markPrevFree st (a + n)).mem y = st.mem y)) ∧
    (Inv (markPrevUsed st (a + n)) g ∧ Fr st g (markPrevUsed st (a + n)) g ∧ SameSeg st (markPrevUsed st (a + n)) ∧
      (markPrevUsed st (a + n)).fb = st.fb ∧
      (∀ m w, g.blk (a + n) = some ⟨m, .used w⟩ → (markPrevUsed st (a + n)).mem (a + n) = w) ∧
      (∀ y, y ≠ a + n → (markPrevUsed st (a + n)).mem y = st.mem y)) := by
  have triv : isNormalUsed (st.mem (a + n)) = false → (∀ m w, g.blk (a + n) ≠ some ⟨m, .used w⟩) → _ := fun h1 h2 =>
    show (Inv (markPrevFree st (a + n)) g ∧ Fr st g (markPrevFree st (a + n)) g ∧ SameSeg st (markPrevFree st (a + n)) ∧
      (markPrevFree st (a + n)).fb = st.fb ∧
      (∀ m w, g.blk (a + n) = some ⟨m, .used w⟩ → (markPrevFree st (a + n)).mem (a + n) = w + 2) ∧
      (∀ y, y ≠ a + n → (markPrevFree st (a + n)).mem y = st.mem y)) ∧
    (Inv (markPrevUsed st (a + n)) g ∧ Fr st g (markPrevUsed st (a + n)) g ∧ SameSeg st (markPrevUsed st (a + n)) ∧
      (markPrevUsed st (a + n)).fb = st.fb ∧
      (∀ m w, g.blk (a + n) = some ⟨m, .used w⟩ → (markPrevUsed st (a + n)).mem (a + n) = w) ∧
      (∀ y, y ≠ a + n → (markPrevUsed st (a + n)).mem y = st.mem y)) from by
    have e1 : markPrevFree st (a + n) = st := by unfold markPrevFree; rw [h1]; simp
    have e2 : markPrevUsed st (a + n) = st := by unfold markPrevUsed; rw [h1]; simp
    rw [e1, e2]
    exact ⟨⟨h, Fr.refl _ _, SameSeg.refl _, rfl, fun m w e => absurd e (h2 m w), fun _ _ => rfl⟩,
      ⟨h, Fr.refl _ _, SameSeg.refl _, rfl, fun m w e => absurd e (h2 m w), fun _ _ => rfl⟩⟩
  rcases h.succ hb with ⟨h1, h2⟩ | ⟨m, k, h2⟩
  · simp only at h1 h2
    apply triv
    · rw [h1]; rfl
    · rw [h2]; simp
  · simp only at h2
    have hal := h.geo.al _ _ h2
    simp only at hal
    cases k with
    | hole => exact absurd h2 (hs m)
    | free =>
      apply triv
      · rw [(h.cont.free _ _ h2).1]; unfold isNormalUsed; simp; omega
      · rw [h2]; simp
    | dv =>
      apply triv
      · rw [(h.cont.dv _ _ h2).1]; unfold isNormalUsed; simp; omega
      · rw [h2]; simp
    | used w =>
      obtain ⟨hw, hn, hm⟩ := h.cont.used _ _ _ h2
      have h3 : isNormalUsed (st.mem (a + n)) = true := by
        unfold isNormalUsed; simp; omega
      have hc : clr (st.mem (a + n)) = w := by
        rcases hm with hm | hm <;> rw [hm]
        · exact clr_self hw
        · exact clr_of hw (by omega)
      have e1 : markPrevFree st (a + n) = st.store (a + n) (w + 2) := by
        unfold markPrevFree; rw [if_pos h3]; unfold mkPrevFree; rw [hc]
      have e2 : markPrevUsed st (a + n) = st.store (a + n) w := by
        unfold markPrevUsed; rw [if_pos h3]; unfold mkPrevUsed; rw [hc]
      rw [e1, e2]
      have s1 := h.set_flag (v := w) (f := w + 2) hb h2 ⟨hw, rfl⟩ (.inr rfl)
      have s2 := h.set_flag (v := w) (f := w) hb h2 ⟨hw, rfl⟩ (.inl rfl)
      rw [setK_same h2] at s1 s2
      refine ⟨⟨s1.1, s1.2, ⟨rfl, rfl, rfl⟩, rfl, ?_, fun y hy => upd_ne hy⟩, ⟨s2.1, s2.2, ⟨rfl, rfl, rfl⟩, rfl, ?_, fun y hy => upd_ne hy⟩⟩
      · intro m' w' e
        rw [h2] at e; injection e with e; injection e with _ e; injection e with e; subst e
        exact upd_self _ _ _
      · intro m' w' e
        rw [h2] at e; injection e with e; injection e with _ e; injection e with e; subst e
        exact upd_self _ _ _

structure Good (st : St) (g : G) : Prop where
  inv : Inv st g
  dv : DvOK st g
  nohole : NoHole g

/-- The block being freed is the only hole. -/
structure Cnd (st : St) (g : G) (p s : Nat) : Prop where
  inv : Inv st g
  dvok : DvOK st g
  hole : g.blk p = some ⟨s, .hole⟩
  only : ∀ x n, g.blk x = some ⟨n, .hole⟩ → x = p
  pred : ∀ a q, g.blk a = some ⟨q, .free⟩ ∨ g.blk a = some ⟨q, .dv⟩ → a + q ≠ p

def Res (st : St) (g : G) (st' : St) : Prop :=
  ∃ g', Good st' g' ∧ Fr st g st' g' ∧ usedAt g' = usedAt g ∧ SameSeg st st'

/-- A block of `s` bytes is the victim or the first block of its list. -/
def HeadAt (st : St) (s : Nat) : Prop :=
  (st.fb DV ≠ 0 ∧ st.fb DVSIZE = s) ∨ (s < 2^40 ∧ st.fb (bix s) ≠ 0 ∧ clr (st.mem (st.fb (bix s))) = s)

/-- A block of `n` bytes, or one from which `n` bytes can be split, is at hand. -/
def HasRoom (st : St) (n : Nat) : Prop := ∃ s, (s = n ∨ n + 32 ≤ s) ∧ HeadAt st s

theorem Res.of {st st1 st' : St} {g g1 : G} (hr : Res st1 g1 st') (hf : Fr st g st1 g1) (hu : usedAt g1 = usedAt g)
    (hs : SameSeg st st1) : Res st g st' := by
  obtain ⟨g', h1, h2, h3, h4⟩ := hr
  exact ⟨g', h1, hf.trans h2, h3.trans hu, hs.trans h4⟩

theorem DvOK.of_blk {st st' : St} {g g' : G} (h : DvOK st g) (hf : ∀ j, 288 ≤ j → st'.fb j = st.fb j)
    (hb : ∀ a n, g'.blk a = some ⟨n, .dv⟩ ↔ g.blk a = some ⟨n, .dv⟩) : DvOK st' g' := by
  unfold DvOK at *
  rw [hf DV (by unfold DV; omega), hf DVSIZE (by unfold DVSIZE; omega)]
  simpa only [ne_eq, hb] using h

theorem setK_hole_blk {g : G} {a n : Nat} {k k' : Kind} (h : g.blk a = some ⟨n, k⟩) (h1 : k ≠ k') (h2 : k' ≠ .hole) (x m : Nat) :
    (g.setK a n .hole).blk x = some ⟨m, k'⟩ ↔ g.blk x = some ⟨m, k'⟩ := by
  rw [setK_some]
  constructor
  · rintro (⟨_, e⟩ | ⟨_, e⟩)
    · injection e with _ e; exact absurd e h2
    · exact e
  · intro e
    refine .inr ⟨?_, e⟩
    rintro rfl
    rw [h] at e; injection e with e; injection e with _ e; exact h1 e

theorem setK_blk_ne {g : G} {a n : Nat} {k k' k'' : Kind} (h : g.blk a = some ⟨n, k⟩) (h1 : k ≠ k') (h2 : k'' ≠ k') (x m : Nat) :
    (g.setK a n k'').blk x = some ⟨m, k'⟩ ↔ g.blk x = some ⟨m, k'⟩ := by
  rw [setK_some]
  constructor
  · rintro (⟨_, e⟩ | ⟨_, e⟩)
    · injection e with _ e; exact absurd e.symm h2
    · exact e
  · intro e
    refine .inr ⟨?_, e⟩
    rintro rfl
    rw [h] at e; injection e with e; injection e with _ e; exact h1 e

/-- Storing the head of the victim. -/
theorem Inv.storeDv {st : St} {g : G} (h : Inv st g) {p s : Nat} (hb : g.blk p = some ⟨s, .hole⟩) :
    Inv (storeDv st p s) g ∧ Fr st g (storeDv st p s) g ∧ (storeDv st p s).mem p = s + 3 ∧ (storeDv st p s).mem (p + 8) = 1 ∧
    (∀ y, ¬ (p ≤ y ∧ y < p + s) → (storeDv st p s).mem y = st.mem y) := by
  have hal := h.geo.al _ _ hb
  simp only at hal
  obtain ⟨i1, f1⟩ := h.hole_write hb (x := p) (v := mkSpecial s) (by omega) (by omega)
  obtain ⟨i2, f2⟩ := i1.hole_write hb (x := p + 8) (v := 1) (by omega) (by omega)
  refine ⟨i2, f1.trans f2, ?_, ?_, ?_⟩
  · show upd (upd st.mem p (mkSpecial s)) (p + 8) 1 p = _
    rw [upd_ne (by omega), upd_self]; unfold mkSpecial; rw [clr_self hal.2.1]
  · show upd (upd st.mem p (mkSpecial s)) (p + 8) 1 (p + 8) = _
    rw [upd_self]
  · intro y hy
    show upd (upd st.mem p (mkSpecial s)) (p + 8) 1 y = _
    rw [upd_ne (by omega), upd_ne (by omega)]


theorem Inv.congr_fb {st st' : St} {g : G} (h : Inv st g) (e1 : st'.mem = st.mem) (e2 : SameSeg st st')
    (e3 : ∀ j, j < 288 → st'.fb j = st.fb j) : Inv st' g := by
  obtain ⟨s1, s2, s3⟩ := e2
  refine ⟨s1 ▸ h.geo, ⟨?_, ?_, h.cont.mem_ch⟩, ?_, ?_⟩
  · rw [s1, e1]; exact h.cont.toCore
  · intro j hj; rw [e1, e3 j hj]; exact h.cont.list j hj
  · rw [s1, s2]; exact h.chunk
  · rw [s2, s3]; exact h.segAl

theorem Fr.congr {st st' : St} {g : G} (e1 : st'.mem = st.mem) (e2 : SameSeg st st') : Fr st g st' g := by
  intro x hx
  refine ⟨by rw [e1], ?_⟩
  unfold Prot at *
  rw [e2.1, e2.2.1, e2.2.2]; exact hx

theorem storeDv_seg (st : St) (p s : Nat) : SameSeg st (storeDv st p s) := ⟨rfl, rfl, rfl⟩
theorem storeDv_fb (st : St) (p s : Nat) : (storeDv st p s).fb = st.fb := rfl

/-- The hole at `p`, already stored as victim, is the victim. -/
theorem finishDv {st : St} {g : G} {p s : Nat} (h : Inv st g) (hb : g.blk p = some ⟨s, .hole⟩)
    (nodv : ∀ x n, g.blk x ≠ some ⟨n, .dv⟩) (pred : ∀ a q, g.blk a = some ⟨q, .free⟩ → a + q ≠ p)
    (hs : ∀ m, g.blk (p + s) ≠ some ⟨m, .free⟩)
    (hnx : ∀ m w', g.blk (p + s) = some ⟨m, .used w'⟩ → st.mem (p + s) = w')
    (m1 : st.mem p = s + 3) (m2 : st.mem (p + 8) = 1) (e4 : st.fb DV = p) (e5 : st.fb DVSIZE = s) :
    Inv st (g.setK p s .dv) ∧ Fr st g st (g.setK p s .dv) ∧ usedAt (g.setK p s .dv) = usedAt g ∧ DvOK st (g.setK p s .dv) := by
  obtain ⟨i3, f3⟩ := h.to_dv hb m1 m2
    (by rintro a q (h1 | h1)
        · exact pred a q h1
        · exact absurd h1 (nodv a q))
    (fun m => ⟨hs m, nodv _ _⟩) hnx
  refine ⟨i3, f3, usedAt_setK (by simp) (usedAt_of hb (by simp)), .inr ⟨?_, ?_⟩⟩
  · rw [e4, e5]; exact setK_some.2 (.inl ⟨rfl, rfl⟩)
  · intro a n h1
    rcases setK_some.1 h1 with ⟨rfl, _⟩ | ⟨_, h2⟩
    · exact e4.symm
    · exact absurd h2 (nodv a n)

theorem pushFree_seg (st : St) (a n : Nat) : SameSeg st (pushFree st a n) := by
  unfold pushFree
  simp only
  split <;> exact ⟨rfl, rfl, rfl⟩

/-- The hole goes to its free list. -/
theorem finishPush {st : St} {g : G} {p s : Nat} (h : Inv st g) (hd : DvOK st g) (hb : g.blk p = some ⟨s, .hole⟩)
    (only : ∀ x n, g.blk x = some ⟨n, .hole⟩ → x = p)
    (pred : ∀ a q, g.blk a = some ⟨q, .free⟩ ∨ g.blk a = some ⟨q, .dv⟩ → a + q ≠ p)
    (hs : ∀ m, g.blk (p + s) ≠ some ⟨m, .free⟩ ∧ g.blk (p + s) ≠ some ⟨m, .dv⟩)
    (hnx : ∀ m w', g.blk (p + s) = some ⟨m, .used w'⟩ → st.mem (p + s) = w' + 2) : Res st g (pushFree st p s) := by
  obtain ⟨i1, f1⟩ := h.push hb pred hs hnx
  have hi : bix s < 288 := bix_lt (h.size_lt hb)
  refine ⟨_, ⟨i1, ?_, ?_⟩, f1, ?_, pushFree_seg _ _ _⟩
  · refine hd.of_blk ?_ ?_
    · intro j hj; rw [pushFree_fb, if_neg (by omega)]
    · intro a n
      exact setK_blk_ne hb (by simp) (by simp) a n
  · intro a n h1
    rcases setK_some.1 h1 with ⟨rfl, h2⟩ | ⟨h3, h2⟩
    · simp at h2
    · exact h3 (only a n h2)
  · rw [usedAt_setCh]; exact usedAt_setK (by simp) (usedAt_of hb (by simp))

theorem nohole_setK {g : G} {p s : Nat} {k : Kind} (hk : k ≠ .hole) (only : ∀ x n, g.blk x = some ⟨n, .hole⟩ → x = p) :
    NoHole (g.setK p s k) := by
  intro a n h1
  rcases setK_some.1 h1 with ⟨rfl, h2⟩ | ⟨h3, h2⟩
  · injection h2 with _ h2; exact hk h2.symm
  · exact h3 (only a n h2)

/-- Last part of `wg_free_object`. -/
theorem freeStore_res {st : St} {g : G} {p s : Nat} (c : Cnd st g p s)
    (hs : ∀ m, g.blk (p + s) ≠ some ⟨m, .free⟩ ∧ g.blk (p + s) ≠ some ⟨m, .dv⟩)
    (hnx : ∀ m w', g.blk (p + s) = some ⟨m, .used w'⟩ → st.mem (p + s) = w' + 2) : Res st g (freeStore st p s) := by
  have hal := c.inv.geo.al _ _ c.hole
  simp only at hal
  unfold freeStore
  by_cases hgt : s > st.fb DVSIZE
  · rw [if_pos hgt]
    simp only
    have hk : ∀ m, g.blk (p + s) ≠ some ⟨m, .hole⟩ := by
      intro m h1; have := c.only _ _ h1; omega
    have i0 : Inv ((st.setFb DV p).setFb DVSIZE s) g := (c.inv.setFbHi (by decide)).setFbHi (by decide)
    have f0 : Fr st g ((st.setFb DV p).setFb DVSIZE s) g := Fr.setFb.trans Fr.setFb
    have e0 : ((st.setFb DV p).setFb DVSIZE s).fb DV = p ∧ ((st.setFb DV p).setFb DVSIZE s).fb DVSIZE = s := by
      constructor
      · show upd (upd st.fb DV p) DVSIZE s DV = p
        rw [upd_ne (by decide), upd_self]
      · show upd (upd st.fb DV p) DVSIZE s DVSIZE = s
        exact upd_self _ _ _
    have g0 : SameSeg st ((st.setFb DV p).setFb DVSIZE s) := ⟨rfl, rfl, rfl⟩
    generalize (st.setFb DV p).setFb DVSIZE s = t at *
    rcases c.dvok with ⟨d1, d2, d3⟩ | ⟨d1, d2⟩
    · rw [if_pos d1]
      obtain ⟨i1, f1, m1, m2, m3⟩ := i0.storeDv c.hole
      obtain ⟨_, k1, k2, k3, k4, k5, k6⟩ := i1.mark c.hole hk
      obtain ⟨r1, r2, r3, r4⟩ := finishDv k1 c.hole d3 (fun a q h1 => c.pred a q (.inl h1)) (fun m => (hs m).1) k5
        (by rw [k6 _ (by omega)]; exact m1) (by rw [k6 _ (by omega)]; exact m2) (by rw [k4]; exact e0.1) (by rw [k4]; exact e0.2)
      exact ⟨_, ⟨r1, r4, nohole_setK (by simp) c.only⟩, ((f0.trans f1).trans k2).trans r2, r3, g0.trans ((storeDv_seg _ _ _).trans k3)⟩
    · have hpos := c.inv.geo.pos d1
      rw [if_neg (by omega)]
      generalize st.fb DV = dv at *
      generalize st.fb DVSIZE = ds at *
      have hne : dv ≠ p := by
        rintro rfl; rw [c.hole] at d1; simp at d1
      have ald := c.inv.geo.al _ _ d1
      simp only at ald
      -- the old victim becomes a hole
      have i1 := i0.to_hole d1 (by simp)
      have f1 : Fr t g t (g.setK dv ds .hole) := Fr.to_hole d1 (by simp)
      have u1 : usedAt (g.setK dv ds .hole) = usedAt g := usedAt_setK (by simp) (usedAt_of d1 (by simp))
      have bp : (g.setK dv ds .hole).blk p = some ⟨s, .hole⟩ := setK_some.2 (.inr ⟨hne.symm, c.hole⟩)
      have bd : (g.setK dv ds .hole).blk dv = some ⟨ds, .hole⟩ := setK_some.2 (.inl ⟨rfl, rfl⟩)
      have nodv : ∀ x n, (g.setK dv ds .hole).blk x ≠ some ⟨n, .dv⟩ := by
        intro x n h1
        rcases setK_some.1 h1 with ⟨rfl, h2⟩ | ⟨h3, h2⟩
        · simp at h2
        · exact h3 (d2 x n h2)
      have fr1 : ∀ x n, (g.setK dv ds .hole).blk x = some ⟨n, .free⟩ ↔ g.blk x = some ⟨n, .free⟩ :=
        fun x n => setK_blk_ne d1 (by simp) (by simp) x n
      have us1 : ∀ x n w, (g.setK dv ds .hole).blk x = some ⟨n, .used w⟩ ↔ g.blk x = some ⟨n, .used w⟩ :=
        fun x n w => setK_blk_ne d1 (by simp) (by simp) x n
      have onl1 : ∀ x n, (g.setK dv ds .hole).blk x = some ⟨n, .hole⟩ → x = p ∨ x = dv := by
        intro x n h1
        rcases setK_some.1 h1 with ⟨rfl, h2⟩ | ⟨h3, h2⟩
        · exact .inr rfl
        · exact .inl (c.only x n h2)
      -- what follows the old victim
      have sd : ∀ m, g.blk (dv + ds) ≠ some ⟨m, .free⟩ ∧ g.blk (dv + ds) ≠ some ⟨m, .dv⟩ := by
        intro m
        constructor
        · intro h1; exact c.inv.cont.adj dv _ _ d1 h1 (.inr rfl) (.inl rfl)
        · intro h1; exact c.inv.cont.adj dv _ _ d1 h1 (.inr rfl) (.inr rfl)
      have hdp : dv + ds ≠ p := c.pred dv ds (.inr d1)
      have hpd : p + s ≠ dv := by
        intro e; rw [← e] at d1; exact (hs _).2 d1
      have pd : ∀ a q, g.blk a = some ⟨q, .free⟩ ∨ g.blk a = some ⟨q, .dv⟩ → a + q ≠ dv := by
        rintro a q (h1 | h1) h2
        · exact c.inv.cont.adj a _ _ h1 (by rw [h2]; exact d1) (.inl rfl) (.inr rfl)
        · exact c.inv.cont.adj a _ _ h1 (by rw [h2]; exact d1) (.inr rfl) (.inr rfl)
      generalize hg1 : g.setK dv ds .hole = g1 at *
      obtain ⟨i2, f2, m1, m2, m3⟩ := i1.storeDv bp
      have hk1 : ∀ m, g1.blk (p + s) ≠ some ⟨m, .hole⟩ := by
        intro m h1; rcases onl1 _ _ h1 with h2 | h2 <;> omega
      obtain ⟨_, k1, k2, k3, k4, k5, k6⟩ := i2.mark bp hk1
      obtain ⟨r1, r2, r3, r4⟩ := finishDv k1 bp nodv (fun a q h1 => c.pred a q (.inl ((fr1 a q).1 h1)))
        (fun m h1 => (hs m).1 ((fr1 _ m).1 h1)) k5
        (by rw [k6 _ (by omega)]; exact m1) (by rw [k6 _ (by omega)]; exact m2) (by rw [k4]; exact e0.1) (by rw [k4]; exact e0.2)
      have sg1 : SameSeg st (markPrevUsed (storeDv t p s) (p + s)) := g0.trans ((storeDv_seg _ _ _).trans k3)
      have fr2 := (((f0.trans f1).trans f2).trans k2).trans r2
      generalize markPrevUsed (storeDv t p s) (p + s) = t2 at *
      have bd2 : (g1.setK p s .dv).blk dv = some ⟨ds, .hole⟩ := setK_some.2 (.inr ⟨hne, bd⟩)
      have fr3 : ∀ x n, (g1.setK p s .dv).blk x = some ⟨n, .free⟩ ↔ g.blk x = some ⟨n, .free⟩ :=
        fun x n => (setK_blk_ne bp (by simp) (by simp) x n).trans (fr1 x n)
      have dv3 : ∀ x n, (g1.setK p s .dv).blk x = some ⟨n, .dv⟩ → x = p ∧ n = s := by
        intro x n h1
        rcases setK_some.1 h1 with ⟨rfl, h2⟩ | ⟨_, h2⟩
        · injection h2 with h2; exact ⟨rfl, h2⟩
        · exact absurd h2 (nodv x n)
      have onl2 : ∀ x n, (g1.setK p s .dv).blk x = some ⟨n, .hole⟩ → x = dv := by
        intro x n h1
        rcases setK_some.1 h1 with ⟨rfl, h2⟩ | ⟨h3, h2⟩
        · simp at h2
        · rcases onl1 x n h2 with h4 | h4
          · exact absurd h4 h3
          · exact h4
      generalize g1.setK p s .dv = g2 at *
      obtain ⟨⟨n1, n2, n3, n4, n5, n6⟩, _⟩ := r1.mark bd2 (by intro m h1; have := onl2 _ _ h1; omega)
      have dok : DvOK (markPrevFree t2 (dv + ds)) g2 := by
        refine r4.of_blk ?_ (fun _ _ => Iff.rfl)
        intro j _; rw [n4]
      refine Res.of (finishPush n1 dok bd2 onl2 ?_ ?_ n5) (fr2.trans n2) (r3.trans u1) (sg1.trans n3)
      · rintro a q (h1 | h1)
        · exact pd a q (.inl ((fr3 a q).1 h1))
        · obtain ⟨rfl, rfl⟩ := dv3 a q h1; exact hpd
      · intro m
        refine ⟨fun h1 => (sd m).1 ((fr3 _ m).1 h1), fun h1 => ?_⟩
        have := dv3 _ _ h1; omega
  · rw [if_neg hgt]
    exact finishPush c.inv c.dvok c.hole c.only c.pred hs hnx

theorem markPrevUsed_fb (st : St) (x : Nat) : (markPrevUsed st x).fb = st.fb := by unfold markPrevUsed; split <;> rfl
theorem markPrevFree_fb (st : St) (x : Nat) : (markPrevFree st x).fb = st.fb := by unfold markPrevFree; split <;> rfl

theorem freeStore_head {st : St} {g : G} {p s : Nat} (c : Cnd st g p s)
    (hs : ∀ m, g.blk (p + s) ≠ some ⟨m, .free⟩ ∧ g.blk (p + s) ≠ some ⟨m, .dv⟩)
    (hnx : ∀ m w', g.blk (p + s) = some ⟨m, .used w'⟩ → st.mem (p + s) = w' + 2) : HeadAt (freeStore st p s) s := by
  have hpos := c.inv.geo.pos c.hole
  unfold freeStore
  by_cases hgt : s > st.fb DVSIZE
  · rw [if_pos hgt]
    left
    simp only
    split
    · rw [markPrevUsed_fb, storeDv_fb]
      constructor
      · show upd (upd st.fb DV p) DVSIZE s DV ≠ 0
        rw [upd_ne (by decide), upd_self]; omega
      · show upd (upd st.fb DV p) DVSIZE s DVSIZE = s
        exact upd_self _ _ _
    · rename_i hdv
      have hb : bix (st.fb DVSIZE) < 288 := by
        rcases c.dvok with ⟨d1, _, _⟩ | ⟨d1, _⟩
        · exact absurd d1 hdv
        · exact bix_lt (c.inv.size_lt d1)
      rw [pushFree_fb, pushFree_fb, if_neg (by have : DV = 288 := rfl; omega), if_neg (by have : DVSIZE = 289 := rfl; omega), markPrevFree_fb, markPrevUsed_fb, storeDv_fb]
      constructor
      · show upd (upd st.fb DV p) DVSIZE s DV ≠ 0
        rw [upd_ne (by decide), upd_self]; omega
      · show upd (upd st.fb DV p) DVSIZE s DVSIZE = s
        exact upd_self _ _ _
  · rw [if_neg hgt]
    right
    obtain ⟨i1, f1⟩ := c.inv.push c.hole c.pred hs hnx
    have al := c.inv.geo.al _ _ c.hole
    refine ⟨c.inv.size_lt c.hole, ?_, ?_⟩
    · rw [pushFree_fb, if_pos rfl]; omega
    · rw [pushFree_fb, if_pos rfl]
      rw [(i1.cont.free p s (setK_some.2 (.inl ⟨rfl, rfl⟩))).1]
      exact clr_of al.2.1 (by omega)

/-- Merging the hole with a following free block (already a hole). -/
theorem Cnd.merged {st : St} {g : G} {p s m : Nat} (i : Inv st g) (dvok : DvOK st g) (hp : g.blk p = some ⟨s, .hole⟩)
    (hq : g.blk (p + s) = some ⟨m, .hole⟩) (only : ∀ x n, g.blk x = some ⟨n, .hole⟩ → x = p ∨ x = p + s)
    (pred : ∀ a q, g.blk a = some ⟨q, .free⟩ ∨ g.blk a = some ⟨q, .dv⟩ → a + q ≠ p) :
    Cnd st (g.merge p s m) p (s + m) ∧ Fr st g st (g.merge p s m) ∧ usedAt (g.merge p s m) = usedAt g := by
  obtain ⟨i1, f1⟩ := i.merge hp hq
  have key : ∀ x n k, k ≠ .hole → ((g.merge p s m).blk x = some ⟨n, k⟩ ↔ g.blk x = some ⟨n, k⟩) := by
    intro x n k hk
    rw [merge_some]
    constructor
    · rintro (⟨_, e⟩ | ⟨_, _, e⟩)
      · injection e with _ e; exact absurd e hk
      · exact e
    · intro e
      refine .inr ⟨?_, ?_, e⟩
      · rintro rfl; rw [hp] at e; injection e with e; injection e with _ e; exact hk e.symm
      · rintro rfl; rw [hq] at e; injection e with e; injection e with _ e; exact hk e.symm
  refine ⟨⟨i1, dvok.of_blk (fun _ _ => rfl) (fun a n => key a n .dv (by simp)), merge_some.2 (.inl ⟨rfl, rfl⟩), ?_, ?_⟩, f1,
    usedAt_merge hp (by simp) hq (by simp)⟩
  · intro x n h1
    rcases merge_some.1 h1 with ⟨e, _⟩ | ⟨h2, h3, h4⟩
    · exact e
    · rcases only x n h4 with h5 | h5
      · exact h5
      · exact absurd h5 h3
  · intro a q h1
    rw [key a q _ (by simp), key a q _ (by simp)] at h1
    exact pred a q h1

theorem isFree_iff {st : St} {g : G} (h : Inv st g) {a : Nat} {b : Blk} (hb : g.blk a = some b)
    (hn : ∀ m, g.blk (a + b.size) ≠ some ⟨m, .hole⟩) :
    isFree (st.mem (a + b.size)) = true ↔ ∃ m, g.blk (a + b.size) = some ⟨m, .free⟩ := by
  rcases h.succ hb with ⟨h1, h2⟩ | ⟨m, k, h2⟩
  · rw [h1, h2]; simp [isFree]
  · have hal := h.geo.al _ _ h2
    simp only at hal
    rw [h2]
    cases k with
    | hole => exact absurd h2 (hn m)
    | free => rw [(h.cont.free _ _ h2).1]; simp [isFree]; omega
    | dv => rw [(h.cont.dv _ _ h2).1]; simp [isFree]; omega
    | used w =>
      obtain ⟨hw, _, hm⟩ := h.cont.used _ _ _ h2
      rcases hm with hm | hm <;> rw [hm] <;> simp [isFree] <;> omega

/-- Unlinking a free block keeps used headers and the victim's words. -/
theorem unlink_mem {st : St} {g : G} (h : Inv st g) {a n : Nat} (hb : g.blk a = some ⟨n, .free⟩) {y c : Nat} {b : Blk}
    (hc : g.blk c = some b) (hk : b.kind ≠ .free) (h1 : c ≤ y) (h2 : y < c + b.size) : (unlinkFree st a n).mem y = st.mem y := by
  obtain ⟨l, _, _, _, u, _⟩ := h.unlink hb
  by_contra hne
  obtain ⟨x, q, hx, h3⟩ := u y hne
  have hal := h.geo.al _ _ hx
  simp only at hal
  obtain ⟨_, e⟩ := h.geo.eq_of_overlap hc hx (x := y) h1 h2 (by omega) (by simp only; omega)
  rw [e] at hk; exact hk rfl

theorem freeNext_res {st : St} {g : G} {p s : Nat} (c : Cnd st g p s) :
    Res st g (freeNext st p s) ∧ HasRoom (freeNext st p s) s := by
  have hal := c.inv.geo.al _ _ c.hole
  simp only at hal
  have hk : ∀ m, g.blk (p + s) ≠ some ⟨m, .hole⟩ := by
    intro m h1; have := c.only _ _ h1; omega
  unfold freeNext
  simp only
  by_cases hf : isFree (st.mem (p + s)) = true
  · rw [if_pos hf]
    obtain ⟨m, hm⟩ := (isFree_iff c.inv c.hole hk).1 hf
    simp only at hm
    have alm := c.inv.geo.al _ _ hm
    simp only at alm
    have hcl : clr (st.mem (p + s)) = m := by rw [(c.inv.cont.free _ _ hm).1]; exact clr_of alm.2.1 (by omega)
    rw [hcl]
    obtain ⟨l, i1, f1, b1, u1, s1⟩ := c.inv.unlink hm
    have um := fun y cc b hc hkk h1 h2 => unlink_mem c.inv hm (y := y) (c := cc) (b := b) hc hkk h1 h2
    have hg : ((g.setK (p + s) m .hole).setCh (bix m) l).blk = (g.setK (p + s) m .hole).blk := rfl
    have ug : usedAt ((g.setK (p + s) m .hole).setCh (bix m) l) = usedAt g := by
      rw [usedAt_setCh]; exact usedAt_setK (by simp) (usedAt_of hm (by simp))
    generalize hG : ((g.setK (p + s) m .hole).setCh (bix m) l) = g1 at *
    have nf : ∀ x n, g1.blk x = some ⟨n, .free⟩ → g.blk x = some ⟨n, .free⟩ ∧ x ≠ p + s := by
      intro x n h1
      rw [hg] at h1
      rcases setK_some.1 h1 with ⟨_, h2⟩ | ⟨h3, h2⟩
      · simp at h2
      · exact ⟨h2, h3⟩
    have nd : ∀ x n, g1.blk x = some ⟨n, .dv⟩ ↔ g.blk x = some ⟨n, .dv⟩ := by
      intro x n; rw [hg]; exact setK_blk_ne hm (by simp) (by simp) x n
    have nu : ∀ x n w, g1.blk x = some ⟨n, .used w⟩ ↔ g.blk x = some ⟨n, .used w⟩ := by
      intro x n w; rw [hg]; exact setK_blk_ne hm (by simp) (by simp) x n
    obtain ⟨c2, f2, u2⟩ := Cnd.merged (p := p) (s := s) (m := m) i1 (c.dvok.of_blk b1 nd)
      (by rw [hg]; exact setK_some.2 (.inr ⟨by omega, c.hole⟩)) (by rw [hg]; exact setK_some.2 (.inl ⟨rfl, rfl⟩))
      (by intro x n h1
          rw [hg] at h1
          rcases setK_some.1 h1 with ⟨h2, _⟩ | ⟨_, h2⟩
          · exact .inr h2
          · exact .inl (c.only x n h2))
      (by rintro a q (h1 | h1)
          · exact c.pred a q (.inl (nf a q h1).1)
          · exact c.pred a q (.inr ((nd a q).1 h1)))
    have bk : ∀ x n k, k ≠ .hole → (g1.merge p s m).blk x = some ⟨n, k⟩ → g1.blk x = some ⟨n, k⟩ := by
      intro x n k hk h1
      rcases merge_some.1 h1 with ⟨_, e⟩ | ⟨_, _, e⟩
      · injection e with _ e; exact absurd e hk
      · exact e
    have A : ∀ q, (g1.merge p s m).blk (p + (s + m)) ≠ some ⟨q, .free⟩ ∧ (g1.merge p s m).blk (p + (s + m)) ≠ some ⟨q, .dv⟩ := by
      intro q
      rw [← Nat.add_assoc]
      constructor
      · intro h1
        exact c.inv.cont.adj _ _ _ hm (nf _ _ (bk _ _ _ (by simp) h1)).1 (.inl rfl) (.inl rfl)
      · intro h1
        exact c.inv.cont.adj _ _ _ hm ((nd _ _).1 (bk _ _ _ (by simp) h1)) (.inl rfl) (.inr rfl)
    have B : ∀ q w, (g1.merge p s m).blk (p + (s + m)) = some ⟨q, .used w⟩ → (unlinkFree st (p + s) m).mem (p + (s + m)) = w + 2 := by
      intro q w h1
      rw [← Nat.add_assoc] at h1 ⊢
      have h2 := (nu _ _ _).1 (bk _ _ _ (by simp) h1)
      have alq := c.inv.geo.al _ _ h2
      simp only at alq
      rw [um _ _ _ h2 (by simp) (by omega) (by simp only; omega)]
      exact c.inv.cont.flag_up _ _ _ _ hm h2
    exact ⟨Res.of (freeStore_res c2 A B) (f1.trans f2) (u2.trans ug) s1, s + m, .inr (by omega), freeStore_head c2 A B⟩
  · rw [if_neg hf]
    have nfree : ∀ m, g.blk (p + s) ≠ some ⟨m, .free⟩ := fun m h1 => hf ((isFree_iff c.inv c.hole hk).2 ⟨m, h1⟩)
    by_cases hd : isSpecial (st.mem (p + s)) = true ∧ p + s = st.fb DV
    · rw [if_pos hd]
      rcases c.dvok with ⟨d1, _, _⟩ | ⟨d1, d2⟩
      · omega
      rw [← hd.2] at d1 d2
      obtain ⟨i1, f1⟩ : Inv st (g.setK (p + s) (st.fb DVSIZE) .hole) ∧ Fr st g st (g.setK (p + s) (st.fb DVSIZE) .hole) :=
        ⟨c.inv.to_hole d1 (by simp), Fr.to_hole d1 (by simp)⟩
      have ug : usedAt (g.setK (p + s) (st.fb DVSIZE) .hole) = usedAt g := usedAt_setK (by simp) (usedAt_of d1 (by simp))
      have hg : ∀ x b, (g.setK (p + s) (st.fb DVSIZE) .hole).blk x = some b ↔ (x = p + s ∧ b = ⟨st.fb DVSIZE, .hole⟩) ∨ (x ≠ p + s ∧ g.blk x = some b) :=
        fun x b => setK_some
      generalize g.setK (p + s) (st.fb DVSIZE) .hole = g1 at *
      have ald := c.inv.geo.al _ _ d1
      simp only at ald
      have dsf : ∀ m, g.blk (p + s + st.fb DVSIZE) ≠ some ⟨m, .free⟩ := fun m h1 =>
        c.inv.cont.adj _ _ _ d1 h1 (.inr rfl) (.inl rfl)
      have du : ∀ m w, g.blk (p + s + st.fb DVSIZE) = some ⟨m, .used w⟩ → st.mem (p + s + st.fb DVSIZE) = w := by
        intro m w h1
        rcases (c.inv.cont.used _ _ _ h1).2.2 with h2 | h2
        · exact h2
        · obtain ⟨a, n, h3, h4⟩ := c.inv.cont.flag_dn _ _ _ h1 h2
          rcases h3 with h3 | h3
          · obtain ⟨_, e⟩ := c.inv.geo.pred_unique h3 d1 h4
            injection e with _ e; simp at e
          · obtain ⟨_, e⟩ := c.inv.geo.pred_unique h3 d1 h4
            injection e with _ e; simp at e
      have g2 : g1.blk p = some ⟨s, .hole⟩ := (hg _ _).2 (.inr ⟨by omega, c.hole⟩)
      have g3 : g1.blk (p + s) = some ⟨st.fb DVSIZE, .hole⟩ := (hg _ _).2 (.inl ⟨rfl, rfl⟩)
      obtain ⟨i2, f2⟩ := i1.merge g2 g3
      have u2 := usedAt_merge g2 (by simp) g3 (by simp)
      have bk : ∀ x n k, k ≠ .hole → (g1.merge p s (st.fb DVSIZE)).blk x = some ⟨n, k⟩ → g.blk x = some ⟨n, k⟩ ∧ x ≠ p + s := by
        intro x n k hk h1
        rcases merge_some.1 h1 with ⟨_, e⟩ | ⟨_, _, e⟩
        · injection e with _ e; exact absurd e hk
        · rcases (hg _ _).1 e with ⟨_, e⟩ | ⟨e1, e2⟩
          · injection e with _ e; exact absurd e hk
          · exact ⟨e2, e1⟩
      have only2 : ∀ x n, (g1.merge p s (st.fb DVSIZE)).blk x = some ⟨n, .hole⟩ → x = p := by
        intro x n h1
        rcases merge_some.1 h1 with ⟨e, _⟩ | ⟨_, h3, e⟩
        · exact e
        · rcases (hg _ _).1 e with ⟨e, _⟩ | ⟨e1, e2⟩
          · exact absurd e h3
          · exact c.only x n e2
      have g4 : (g1.merge p s (st.fb DVSIZE)).blk p = some ⟨s + st.fb DVSIZE, .hole⟩ := merge_some.2 (.inl ⟨rfl, rfl⟩)
      generalize st.fb DVSIZE = ds at *
      generalize g1.merge p s ds = g5 at *
      have i3 : Inv ((st.setFb DV p).setFb DVSIZE (s + ds)) g5 := (i2.setFbHi (by decide)).setFbHi (by decide)
      obtain ⟨i4, f4, m1, m2, m3⟩ := i3.storeDv g4
      have f3 : Fr st g5 ((st.setFb DV p).setFb DVSIZE (s + ds)) g5 := Fr.setFb.trans Fr.setFb
      obtain ⟨r1, r2, r3, r4⟩ := finishDv i4 g4
        (fun x n h1 => by
          obtain ⟨h2, h3⟩ := bk x n _ (by simp) h1
          exact h3 (d2 x n h2))
        (fun a q h1 => c.pred a q (.inl (bk a q _ (by simp) h1).1))
        (fun m h1 => by rw [← Nat.add_assoc] at h1; exact dsf m (bk _ _ _ (by simp) h1).1)
        (fun m w h1 => by
          rw [m3 _ (by omega)]
          rw [← Nat.add_assoc] at h1 ⊢
          exact du m w (bk _ _ _ (by simp) h1).1)
        m1 m2 (by show upd (upd st.fb DV p) DVSIZE (s + ds) DV = p; rw [upd_ne (by decide), upd_self])
        (by show upd (upd st.fb DV p) DVSIZE (s + ds) DVSIZE = _; rw [upd_self])
      refine ⟨⟨_, ⟨r1, r4, nohole_setK (by simp) only2⟩, ((((f1.trans f2).trans f3).trans f4).trans r2), (r3.trans u2).trans ug, ⟨rfl, rfl, rfl⟩⟩,
        s + ds, .inr (by omega), .inl ⟨?_, ?_⟩⟩
      · show upd (upd st.fb DV p) DVSIZE (s + ds) DV ≠ 0
        have := c.inv.geo.pos c.hole
        rw [upd_ne (by decide), upd_self]; omega
      · show upd (upd st.fb DV p) DVSIZE (s + ds) DVSIZE = _
        exact upd_self _ _ _
    · rw [if_neg hd]
      have ndv : ∀ m, g.blk (p + s) ≠ some ⟨m, .dv⟩ := by
        intro m h1
        apply hd
        have alm := c.inv.geo.al _ _ h1
        simp only at alm
        refine ⟨by rw [(c.inv.cont.dv _ _ h1).1]; simp [isSpecial]; omega, ?_⟩
        rcases c.dvok with ⟨_, _, d⟩ | ⟨_, d⟩
        · exact absurd h1 (d _ _)
        · exact d _ _ h1
      obtain ⟨⟨k1, k2, k3, k4, k5, k6⟩, _⟩ := c.inv.mark c.hole hk
      have c2 : Cnd (markPrevFree st (p + s)) g p s :=
        ⟨k1, c.dvok.of_blk (fun j _ => by rw [k4]) (fun _ _ => Iff.rfl), c.hole, c.only, c.pred⟩
      exact ⟨Res.of (freeStore_res c2 (fun m => ⟨nfree m, ndv m⟩) k5) k2 rfl k3, s, .inl rfl,
        freeStore_head c2 (fun m => ⟨nfree m, ndv m⟩) k5⟩

/-- A block following a used block, victim... : its flag is not set. -/
theorem flag_off {st : St} {g : G} (h : Inv st g) {a : Nat} {b : Blk} (hb : g.blk a = some b) (hk : b.kind ≠ .free ∧ b.kind ≠ .hole)
    {m w : Nat} (h1 : g.blk (a + b.size) = some ⟨m, .used w⟩) : st.mem (a + b.size) = w := by
  rcases (h.cont.used _ _ _ h1).2.2 with h2 | h2
  · exact h2
  · obtain ⟨x, n, h3, h4⟩ := h.cont.flag_dn _ _ _ h1 h2
    rcases h3 with h3 | h3
    · obtain ⟨_, e⟩ := h.geo.pred_unique h3 hb h4
      rw [← e] at hk; simp at hk
    · obtain ⟨_, e⟩ := h.geo.pred_unique h3 hb h4
      rw [← e] at hk; simp at hk

theorem freeIntoDv_res {st : St} {g : G} {n w : Nat} (G0 : Good st g) (d1 : g.blk (st.fb DV) = some ⟨st.fb DVSIZE, .dv⟩)
    (hu : g.blk (st.fb DV + st.fb DVSIZE) = some ⟨n, .used w⟩) :
    Res st (g.setK (st.fb DV + st.fb DVSIZE) n .hole) (freeIntoDv st n) := by
  have d2 : ∀ a m, g.blk a = some ⟨m, .dv⟩ → a = st.fb DV := by
    rcases G0.dv with ⟨_, _, d⟩ | ⟨_, d⟩
    · exact absurd d1 (d _ _)
    · exact d
  have ald := G0.inv.geo.al _ _ d1
  have alu := G0.inv.geo.al _ _ hu
  simp only at ald alu
  have i1 := G0.inv.to_hole hu (by simp)
  have hg1 : ∀ x b, (g.setK (st.fb DV + st.fb DVSIZE) n .hole).blk x = some b ↔
    (x = st.fb DV + st.fb DVSIZE ∧ b = ⟨n, .hole⟩) ∨ (x ≠ st.fb DV + st.fb DVSIZE ∧ g.blk x = some b) := fun x b => setK_some
  have nx := fun m w' => flag_off G0.inv hu (by simp) (m := m) (w := w')
  simp only at nx
  unfold freeIntoDv
  simp only
  rw [Nat.add_comm n (st.fb DVSIZE)]
  generalize hd : st.fb DV = d at *
  generalize hds : st.fb DVSIZE = ds at *
  generalize g.setK (d + ds) n .hole = g1 at *
  have h2 : g1.blk d = some ⟨ds, .dv⟩ := (hg1 _ _).2 (.inr ⟨by omega, d1⟩)
  have i2 := i1.to_hole h2 (by simp)
  have f2 : Fr st g1 st _ := Fr.to_hole h2 (by simp)
  have u2 : usedAt (g1.setK d ds .hole) = usedAt g1 := usedAt_setK (by simp) (usedAt_of h2 (by simp))
  have hg2 : ∀ x b, (g1.setK d ds .hole).blk x = some b ↔ (x = d ∧ b = ⟨ds, .hole⟩) ∨ (x ≠ d ∧ g1.blk x = some b) := fun x b => setK_some
  generalize g1.setK d ds .hole = g2 at *
  have a2 : g2.blk d = some ⟨ds, .hole⟩ := (hg2 _ _).2 (.inl ⟨rfl, rfl⟩)
  have b2 : g2.blk (d + ds) = some ⟨n, .hole⟩ := (hg2 _ _).2 (.inr ⟨by omega, (hg1 _ _).2 (.inl ⟨rfl, rfl⟩)⟩)
  obtain ⟨i3, f3⟩ := i2.merge a2 b2
  have u3 := usedAt_merge a2 (by simp) b2 (by simp)
  have hg3 : ∀ x b, (g2.merge d ds n).blk x = some b ↔ (x = d ∧ b = ⟨ds + n, .hole⟩) ∨ (x ≠ d ∧ x ≠ d + ds ∧ g2.blk x = some b) :=
    fun x b => merge_some
  generalize g2.merge d ds n = g3 at *
  have a3 : g3.blk d = some ⟨ds + n, .hole⟩ := (hg3 _ _).2 (.inl ⟨rfl, rfl⟩)
  have back3 : ∀ x b, g3.blk x = some b → x ≠ d → g.blk x = some b ∧ x ≠ d + ds := by
    intro x b h hx
    rcases (hg3 _ _).1 h with ⟨e, _⟩ | ⟨e1, e2, e3⟩
    · exact absurd e hx
    · rcases (hg2 _ _).1 e3 with ⟨e, _⟩ | ⟨_, e4⟩
      · exact absurd e hx
      · rcases (hg1 _ _).1 e4 with ⟨e, _⟩ | ⟨_, e5⟩
        · exact absurd e e2
        · exact ⟨e5, e2⟩
  have at3 : ∀ b, g3.blk d = some b → b = ⟨ds + n, .hole⟩ := by
    intro b h; rw [a3] at h; injection h with h; exact h.symm
  have only3 : ∀ x m, g3.blk x = some ⟨m, .hole⟩ → x = d := by
    intro x m h
    by_cases hx : x = d
    · exact hx
    · exact absurd (back3 x _ h hx).1 (G0.nohole x m)
  have nodv3 : ∀ x m, g3.blk x ≠ some ⟨m, .dv⟩ := by
    intro x m h
    by_cases hx : x = d
    · subst hx; have := at3 _ h; simp at this
    · exact hx (d2 _ _ (back3 x _ h hx).1)
  have pred3 : ∀ a q, g3.blk a = some ⟨q, .free⟩ → a + q ≠ d := by
    intro a q h e
    by_cases hx : a = d
    · subst hx; have := at3 _ h; simp at this
    · exact G0.inv.cont.adj a _ _ (back3 a _ h hx).1 (by rw [e]; exact d1) (.inl rfl) (.inr rfl)
  have hk3 : ∀ m, g3.blk (d + (ds + n)) ≠ some ⟨m, .hole⟩ := by
    intro m h; have := only3 _ _ h; omega
  by_cases hf : isFree (st.mem (d + (ds + n))) = true
  · rw [if_pos hf]
    obtain ⟨m, hm⟩ := (isFree_iff i3 a3 hk3).1 hf
    simp only at hm
    have alm := i3.geo.al _ _ hm
    simp only at alm
    have hcl : clr (st.mem (d + (ds + n))) = m := by rw [(i3.cont.free _ _ hm).1]; exact clr_of alm.2.1 (by omega)
    rw [hcl]
    obtain ⟨l, i4, f4, b4, _, s4⟩ := i3.unlink hm
    have hg : ((g3.setK (d + (ds + n)) m .hole).setCh (bix m) l).blk = (g3.setK (d + (ds + n)) m .hole).blk := rfl
    have u4 : usedAt ((g3.setK (d + (ds + n)) m .hole).setCh (bix m) l) = usedAt g3 := by
      rw [usedAt_setCh]; exact usedAt_setK (by simp) (usedAt_of hm (by simp))
    generalize ((g3.setK (d + (ds + n)) m .hole).setCh (bix m) l) = g4 at *
    have hg4 : ∀ x b, g4.blk x = some b ↔ (x = d + (ds + n) ∧ b = ⟨m, .hole⟩) ∨ (x ≠ d + (ds + n) ∧ g3.blk x = some b) := by
      intro x b; rw [hg]; exact setK_some
    have a4 : g4.blk d = some ⟨ds + n, .hole⟩ := (hg4 _ _).2 (.inr ⟨by omega, a3⟩)
    have c4 : g4.blk (d + (ds + n)) = some ⟨m, .hole⟩ := (hg4 _ _).2 (.inl ⟨rfl, rfl⟩)
    obtain ⟨i5, f5⟩ := i4.merge a4 c4
    have u5 := usedAt_merge a4 (by simp) c4 (by simp)
    have hg5 : ∀ x b, (g4.merge d (ds + n) m).blk x = some b ↔ (x = d ∧ b = ⟨ds + n + m, .hole⟩) ∨ (x ≠ d ∧ x ≠ d + (ds + n) ∧ g4.blk x = some b) :=
      fun x b => merge_some
    generalize g4.merge d (ds + n) m = g5 at *
    have a5 : g5.blk d = some ⟨ds + n + m, .hole⟩ := (hg5 _ _).2 (.inl ⟨rfl, rfl⟩)
    have back5 : ∀ x b, g5.blk x = some b → b.kind ≠ .hole → g3.blk x = some b := by
      intro x b h hx
      rcases (hg5 _ _).1 h with ⟨_, rfl⟩ | ⟨e1, e2, e3⟩
      · simp at hx
      · rcases (hg4 _ _).1 e3 with ⟨_, rfl⟩ | ⟨_, e4⟩
        · simp at hx
        · exact e4
    have only5 : ∀ x q, g5.blk x = some ⟨q, .hole⟩ → x = d := by
      intro x q h
      rcases (hg5 _ _).1 h with ⟨e, _⟩ | ⟨e1, e2, e3⟩
      · exact e
      · rcases (hg4 _ _).1 e3 with ⟨e, _⟩ | ⟨_, e4⟩
        · exact absurd e e2
        · exact only3 _ _ e4
    have hadd : d + (ds + n + m) = d + (ds + n) + m := by omega
    obtain ⟨_, k1, k2, k3, k4, k5, k6⟩ := i5.mark a5 (by intro q h; have := only5 _ _ h; omega)
    have s5 := SameSeg.trans s4 k3
    have b5 : (markPrevUsed (unlinkFree st (d + (ds + n)) m) (d + (ds + n + m))).fb DV = d := by
      rw [k4, b4 DV (by decide)]; exact hd
    generalize markPrevUsed (unlinkFree st (d + (ds + n)) m) (d + (ds + n + m)) = t at *
    obtain ⟨i6, f6, m1, m2, m3⟩ := k1.storeDv a5
    have i7 : Inv ((storeDv t d (ds + n + m)).setFb DVSIZE (ds + n + m)) g5 := i6.setFbHi (by decide)
    have f7 : Fr (storeDv t d (ds + n + m)) g5 ((storeDv t d (ds + n + m)).setFb DVSIZE (ds + n + m)) g5 := Fr.setFb
    obtain ⟨r1, r2, r3, r4⟩ := finishDv i7 a5 (fun x q h => nodv3 _ _ (back5 x _ h (by simp)))
      (fun a q h => pred3 a q (back5 _ _ h (by simp)))
      (fun q h => by
        rw [hadd] at h
        exact i3.cont.adj _ _ _ hm (back5 _ _ h (by simp)) (.inl rfl) (.inl rfl))
      (fun q w' h => by
        show (storeDv t d (ds + n + m)).mem _ = _
        rw [m3 _ (by omega)]; exact k5 _ _ h)
      m1 m2 (by show upd t.fb DVSIZE (ds + n + m) DV = d; rw [upd_ne (by decide)]; exact b5)
      (by show upd t.fb DVSIZE (ds + n + m) DVSIZE = ds + n + m; rw [upd_self])
    exact ⟨_, ⟨r1, r4, nohole_setK (by simp) only5⟩, (((((((f2.trans f3).trans f4).trans f5).trans k2).trans f6).trans f7).trans r2),
      ((((r3.trans u5).trans u4).trans u3).trans u2), s5.trans ⟨rfl, rfl, rfl⟩⟩
  · rw [if_neg hf]
    have nfree : ∀ m, g3.blk (d + (ds + n)) ≠ some ⟨m, .free⟩ := fun m h1 => hf ((isFree_iff i3 a3 hk3).2 ⟨m, h1⟩)
    obtain ⟨i6, f6, m1, m2, m3⟩ := i3.storeDv a3
    have i7 : Inv ((storeDv st d (ds + n)).setFb DVSIZE (ds + n)) g3 := i6.setFbHi (by decide)
    have f7 : Fr (storeDv st d (ds + n)) g3 ((storeDv st d (ds + n)).setFb DVSIZE (ds + n)) g3 := Fr.setFb
    obtain ⟨r1, r2, r3, r4⟩ := finishDv i7 a3 nodv3 pred3 nfree
      (fun q w' h => by
        show (storeDv st d (ds + n)).mem _ = _
        rw [m3 _ (by omega)]
        have h5 := (back3 _ _ h (by omega)).1
        rw [← Nat.add_assoc] at h5 ⊢
        exact nx _ _ h5)
      m1 m2 (by show upd st.fb DVSIZE (ds + n) DV = d; rw [upd_ne (by decide)]; exact hd)
      (by show upd st.fb DVSIZE (ds + n) DVSIZE = ds + n; rw [upd_self])
    exact ⟨_, ⟨r1, r4, nohole_setK (by simp) only3⟩, (((f2.trans f3).trans f6).trans f7).trans r2,
      (r3.trans u3).trans u2, ⟨rfl, rfl, rfl⟩⟩

theorem freeIntoDv_head {st : St} {g : G} {n w : Nat} (G0 : Good st g) (d1 : g.blk (st.fb DV) = some ⟨st.fb DVSIZE, .dv⟩)
    (hu : g.blk (st.fb DV + st.fb DVSIZE) = some ⟨n, .used w⟩) : HasRoom (freeIntoDv st n) n := by
  have hpos := G0.inv.geo.pos d1
  have al := G0.inv.geo.al _ _ d1
  simp only at al
  have key : ∀ (t : St) (o z : Nat), t.fb DV = st.fb DV → n + 32 ≤ z → HasRoom ((storeDv t o z).setFb DVSIZE z) n := by
    intro t o z ht hz
    refine ⟨z, .inr hz, .inl ⟨?_, ?_⟩⟩
    · show upd t.fb DVSIZE z DV ≠ 0
      rw [upd_ne (by decide), ht]; omega
    · show upd t.fb DVSIZE z DVSIZE = _
      exact upd_self _ _ _
  have ul : ∀ (a m : Nat), bix m < 288 → (unlinkFree st a m).fb DV = st.fb DV := by
    intro a m hm
    unfold unlinkFree
    simp only
    split <;> split <;> first
      | rfl
      | (show upd st.fb _ _ DV = _; rw [upd_ne]; unfold DV; omega)
  unfold freeIntoDv
  simp only
  split
  · rename_i hf
    have nh : ∀ m, g.blk (st.fb DV + st.fb DVSIZE + n) ≠ some ⟨m, .hole⟩ := fun m => G0.nohole _ _
    have e : st.fb DV + (n + st.fb DVSIZE) = st.fb DV + st.fb DVSIZE + n := by omega
    rw [e] at hf
    obtain ⟨m, hm⟩ := (isFree_iff G0.inv hu nh).1 hf
    simp only at hm
    have alm := G0.inv.geo.al _ _ hm
    simp only at alm
    have hcl : clr (st.mem (st.fb DV + st.fb DVSIZE + n)) = m := by rw [(G0.inv.cont.free _ _ hm).1]; exact clr_of alm.2.1 (by omega)
    rw [e, hcl]
    refine key _ _ _ ?_ (by omega)
    rw [markPrevUsed_fb]
    exact ul _ _ (bix_lt (G0.inv.size_lt hm))
  · exact key _ _ _ rfl (by omega)

theorem HasRoom.mono {st : St} {n m : Nat} (h : HasRoom st m) (hm : m = n ∨ n + 32 ≤ m) : HasRoom st n := by
  obtain ⟨s, h1, h2⟩ := h
  exact ⟨s, by omega, h2⟩

/-- `wg_free_object` of a live object: succeeds and keeps the invariant; only that object dies. -/
theorem free_res {st : St} {g : G} {obj n w : Nat} (G0 : Good st g) (hu : g.blk obj = some ⟨n, .used w⟩) :
    (free st obj).2 = 0 ∧ Res st (g.setK obj n .hole) (free st obj).1 ∧ HasRoom (free st obj).1 n := by
  obtain ⟨hw, hn, hm⟩ := G0.inv.cont.used _ _ _ hu
  have alu := G0.inv.geo.al _ _ hu
  have hpos := G0.inv.geo.pos hu
  simp only at alu
  have h1 : isFree (st.mem obj) = false := by
    rcases hm with hm | hm <;> rw [hm] <;> simp [isFree] <;> omega
  have h2 : usedSize (st.mem obj) = n := by
    rcases hm with hm | hm <;> rw [hm, hn]
    · exact usedSize_of (k := 0) hw (by omega)
    · exact usedSize_of hw (by omega)
  have i1 := G0.inv.to_hole hu (by simp)
  have hg1 : ∀ x b, (g.setK obj n .hole).blk x = some b ↔ (x = obj ∧ b = ⟨n, .hole⟩) ∨ (x ≠ obj ∧ g.blk x = some b) := fun x b => setK_some
  have only1 : ∀ x m, (g.setK obj n .hole).blk x = some ⟨m, .hole⟩ → x = obj := by
    intro x m h
    rcases (hg1 _ _).1 h with ⟨e, _⟩ | ⟨_, e⟩
    · exact e
    · exact absurd e (G0.nohole x m)
  have nd : ∀ x m, (g.setK obj n .hole).blk x = some ⟨m, .dv⟩ ↔ g.blk x = some ⟨m, .dv⟩ := fun x m => setK_blk_ne hu (by simp) (by simp) x m
  have nf : ∀ x m, (g.setK obj n .hole).blk x = some ⟨m, .free⟩ ↔ g.blk x = some ⟨m, .free⟩ := fun x m => setK_blk_ne hu (by simp) (by simp) x m
  unfold free
  simp only
  rw [h1, h2]
  simp only [Bool.false_eq_true, if_false]
  rw [if_neg (by unfold MINSZ; omega)]
  by_cases hp : isPrevFree (st.mem obj) = true
  · rw [if_pos hp]
    have hm2 : st.mem obj = w + 2 := by
      rcases hm with hm | hm
      · rw [hm] at hp; simp [isPrevFree] at hp; omega
      · exact hm
    obtain ⟨p, q, h3, h4⟩ := G0.inv.cont.flag_dn _ _ _ hu hm2
    have h5 : g.blk p = some ⟨q, .free⟩ := by
      rcases h3 with h3 | h3
      · exact h3
      · exact absurd h3 (G0.nohole p q)
    have alp := G0.inv.geo.al _ _ h5
    simp only at alp
    obtain ⟨t1, t2⟩ := G0.inv.cont.free _ _ h5
    have e1 : st.mem (obj - 8) = q + 1 := by rw [← h4]; exact t2
    have e2 : clr (st.mem (obj - 8)) = q := by rw [e1]; exact clr_of alp.2.1 (by omega)
    rw [e2]
    have e3 : obj - q = p := by omega
    rw [e3, t1]
    rw [if_neg]
    · refine ⟨rfl, ?_⟩
      simp only
      have h6 : (g.setK obj n .hole).blk p = some ⟨q, .free⟩ := (nf _ _).2 h5
      obtain ⟨l, i4, f4, b4, _, s4⟩ := i1.unlink h6
      have hg : (((g.setK obj n .hole).setK p q .hole).setCh (bix q) l).blk = ((g.setK obj n .hole).setK p q .hole).blk := rfl
      have u4 : usedAt (((g.setK obj n .hole).setK p q .hole).setCh (bix q) l) = usedAt (g.setK obj n .hole) := by
        rw [usedAt_setCh]; exact usedAt_setK (by simp) (usedAt_of h6 (by simp))
      generalize (((g.setK obj n .hole).setK p q .hole).setCh (bix q) l) = g4 at *
      have hg4 : ∀ x b, g4.blk x = some b ↔ (x = p ∧ b = ⟨q, .hole⟩) ∨ (x ≠ p ∧ (g.setK obj n .hole).blk x = some b) := by
        intro x b; rw [hg]; exact setK_some
      generalize g.setK obj n .hole = g1 at *
      rw [Nat.add_comm n q]
      obtain ⟨c5, f5, u5⟩ := Cnd.merged (st := unlinkFree st p q) (p := p) (s := q) (m := n) (g := g4) i4
        (G0.dv.of_blk b4 (fun a m => by
          rw [← nd a m, hg4]
          constructor
          · rintro (⟨_, e⟩ | ⟨_, e⟩)
            · simp at e
            · exact e
          · intro e
            refine .inr ⟨?_, e⟩
            rintro rfl
            rw [h6] at e; simp at e))
        ((hg4 _ _).2 (.inl ⟨rfl, rfl⟩))
        ((hg4 _ _).2 (.inr ⟨by omega, by rw [h4]; exact (hg1 _ _).2 (.inl ⟨rfl, rfl⟩)⟩))
        (by intro x m h
            rcases (hg4 _ _).1 h with ⟨e, _⟩ | ⟨_, e⟩
            · exact .inl e
            · exact .inr (by rw [h4]; exact only1 _ _ e))
        (by rintro a m (h | h) e
            · rcases (hg4 _ _).1 h with ⟨_, e⟩ | ⟨_, e'⟩
              · simp at e
              · exact G0.inv.cont.adj a _ _ ((nf _ _).1 e') (by rw [e]; exact h5) (.inl rfl) (.inl rfl)
            · rcases (hg4 _ _).1 h with ⟨_, e⟩ | ⟨_, e'⟩
              · simp at e
              · exact G0.inv.cont.adj a _ _ ((nd _ _).1 e') (by rw [e]; exact h5) (.inr rfl) (.inl rfl))
      obtain ⟨x1, x2⟩ := freeNext_res c5
      exact ⟨Res.of x1 (f4.trans f5) (u5.trans u4) s4, x2.mono (by omega)⟩
    · rw [clr_of alp.2.1 (by omega)]
      simp [isFree]; omega
  · rw [if_neg hp]
    have hm2 : st.mem obj = w := by
      rcases hm with hm | hm
      · exact hm
      · rw [hm] at hp; simp [isPrevFree] at hp; omega
    by_cases hd : st.fb DV + st.fb DVSIZE = obj
    · rw [if_pos hd]
      refine ⟨rfl, ?_⟩
      simp only
      rcases G0.dv with ⟨d1, d2, _⟩ | ⟨d1, _⟩
      · omega
      · subst hd
        exact ⟨freeIntoDv_res G0 d1 hu, freeIntoDv_head G0 d1 hu⟩
    · rw [if_neg hd]
      refine ⟨rfl, ?_⟩
      simp only
      apply freeNext_res
      refine ⟨i1, G0.dv.of_blk (fun _ _ => rfl) nd, (hg1 _ _).2 (.inl ⟨rfl, rfl⟩), only1, ?_⟩
      rintro a q (h | h) e
      · have := G0.inv.cont.flag_up a q n w ((nf _ _).1 h) (by rw [e]; exact hu)
        rw [e] at this; omega
      · have h7 := (nd _ _).1 h
        rcases G0.dv with ⟨_, _, d3⟩ | ⟨d1, d2⟩
        · exact d3 _ _ h7
        · have := d2 _ _ h7
          subst this
          rw [h7] at d1; injection d1 with d1; injection d1 with d1
          omega

end WG.Varlen
