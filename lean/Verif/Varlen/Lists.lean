import Verif.Varlen.Steps
import Mathlib.Tactic.ByContra
import Mathlib.Tactic.Tauto
/-! Free list operations: push, unlink, pop. -/
namespace WG.Varlen

/-- Changing only the link words of free blocks keeps everything but the lists. -/
theorem Core.relink {subs : List Sub} {mem mem' : Nat → Nat} {g : G} (c : Core subs mem g.blk) (geo : Geo subs g.blk)
    (hm : ∀ y, mem' y ≠ mem y → ∃ x n, g.blk x = some ⟨n, .free⟩ ∧ (y = x + 8 ∨ y = x + 16)) : Core subs mem' g.blk := by
  have same : ∀ y a b, g.blk a = some b → a ≤ y → y < a + b.size → (b.kind = .free → y ≠ a + 8 ∧ y ≠ a + 16) → mem' y = mem y := by
    intro y a b hb h1 h2 h3
    by_contra hne
    obtain ⟨x, n, hx, h4⟩ := hm y hne
    have hal := geo.al _ _ hx
    simp only at hal
    obtain ⟨rfl, rfl⟩ := geo.eq_of_overlap hx hb (x := y) (by omega) (by simp only; omega) h1 h2
    have := h3 rfl
    omega
  have mk : ∀ s ∈ subs, mem' s.aoff = mem s.aoff ∧ mem' s.hi = mem s.hi := by
    intro s hs
    constructor
    · by_contra hne
      obtain ⟨x, n, hx, h4⟩ := hm _ hne
      have hal := geo.al _ _ hx
      have := geo.marker_out hs hx
      simp only at hal this
      omega
    · by_contra hne
      obtain ⟨x, n, hx, h4⟩ := hm _ hne
      have hal := geo.al _ _ hx
      have := geo.marker_out hs hx
      simp only at hal this
      omega
  have hu : ∀ a n w, g.blk a = some ⟨n, .used w⟩ → mem' a = mem a := by
    intro a n w hb
    have hal := geo.al _ _ hb
    simp only at hal
    exact same a a _ hb (by omega) (by simp only; omega) (by simp)
  refine ⟨?_, ?_, ?_, ?_, ?_, ?_, c.adj⟩
  · intro s hs; rw [(mk s hs).1, (mk s hs).2]; exact c.marker s hs
  · intro a n w hb; rw [hu a n w hb]; exact c.used a n w hb
  · intro a n m w h1 h2; rw [hu _ _ _ h2]; exact c.flag_up a n m w h1 h2
  · intro x m w h1 h2; rw [hu _ _ _ h1] at h2; exact c.flag_dn x m w h1 h2
  · intro a n hb
    have hal := geo.al _ _ hb
    simp only at hal
    rw [same a a _ hb (by omega) (by simp only; omega) (by intro _; omega),
      same (a + n - 8) a _ hb (by omega) (by simp only; omega) (by intro _; omega)]
    exact c.free a n hb
  · intro a n hb
    have hal := geo.al _ _ hb
    simp only at hal
    rw [same a a _ hb (by omega) (by simp only; omega) (by simp),
      same (a + 8) a _ hb (by omega) (by simp only; omega) (by simp)]
    exact c.dv a n hb

/-- A hole becomes free (list membership apart). -/
theorem Core.to_free {subs : List Sub} {mem : Nat → Nat} {g : G} (c : Core subs mem g.blk) (geo : Geo subs g.blk)
    {a n : Nat} (hb : g.blk a = some ⟨n, .hole⟩) (hm : mem a = n + 1) (hm2 : mem (a + n - 8) = n + 1)
    (hp : ∀ p q, g.blk p = some ⟨q, .free⟩ ∨ g.blk p = some ⟨q, .dv⟩ → p + q ≠ a)
    (hs : ∀ m, g.blk (a + n) ≠ some ⟨m, .free⟩ ∧ g.blk (a + n) ≠ some ⟨m, .dv⟩)
    (hnx : ∀ m w', g.blk (a + n) = some ⟨m, .used w'⟩ → mem (a + n) = w' + 2) :
    Core subs mem (g.setK a n .free).blk := by
  have hal := geo.al _ _ hb
  simp only at hal
  have back : ∀ x m k', (g.setK a n .free).blk x = some ⟨m, k'⟩ → x ≠ a → g.blk x = some ⟨m, k'⟩ := by
    intro x m k' hx hne
    rcases setK_some.1 hx with ⟨h1, _⟩ | ⟨_, h2⟩
    · exact absurd h1 hne
    · exact h2
  have back2 : ∀ x m k', (g.setK a n .free).blk x = some ⟨m, k'⟩ → k' ≠ .free → g.blk x = some ⟨m, k'⟩ := by
    intro x m k' hx hne
    rcases setK_some.1 hx with ⟨h1, h2⟩ | ⟨_, h2⟩
    · injection h2 with _ h2; exact absurd h2 hne
    · exact h2
  have ata : ∀ m k', (g.setK a n .free).blk a = some ⟨m, k'⟩ → m = n ∧ k' = .free := by
    intro m' k' hx
    rcases setK_some.1 hx with ⟨_, h1⟩ | ⟨h1, _⟩
    · injection h1 with h1 h2; exact ⟨h1, h2⟩
    · exact absurd rfl h1
  refine ⟨c.marker, ?_, ?_, ?_, ?_, ?_, ?_⟩
  · intro x m w' hx; exact c.used x m w' (back2 _ _ _ hx (by simp))
  · intro x m m' w' h1 h2
    have h2' := back2 _ _ _ h2 (by simp)
    by_cases hxa : x = a
    · subst hxa
      obtain ⟨rfl, _⟩ := ata _ _ h1
      exact hnx m' w' h2'
    · exact c.flag_up x m m' w' (back _ _ _ h1 hxa) h2'
  · intro x m w' h1 h2
    have h1' := back2 _ _ _ h1 (by simp)
    obtain ⟨p, q, h3, h4⟩ := c.flag_dn x m w' h1' h2
    by_cases hpa : p = a
    · subst hpa
      rw [hb] at h3
      simp at h3
      subst h3
      exact ⟨p, n, .inl (setK_some.2 (.inl ⟨rfl, rfl⟩)), h4⟩
    · refine ⟨p, q, ?_, h4⟩
      rcases h3 with h3 | h3
      · exact .inl (setK_some.2 (.inr ⟨hpa, h3⟩))
      · exact .inr (setK_some.2 (.inr ⟨hpa, h3⟩))
  · intro x m hx
    by_cases hxa : x = a
    · subst hxa
      obtain ⟨rfl, _⟩ := ata _ _ hx
      exact ⟨hm, hm2⟩
    · exact c.free x m (back _ _ _ hx hxa)
  · intro x m hx; exact c.dv x m (back2 _ _ _ hx (by simp))
  · intro x b d h1 h2 h3 h4
    by_cases hxa : x = a
    · subst hxa
      have h5 := ata b.size b.kind h1
      rw [h5.1] at h2
      have h6 := back (x + n) d.size d.kind h2 (by omega)
      have := hs d.size
      rcases h4 with h4 | h4 <;> (rw [h4] at h6; simp [h6] at this)
    · have e1 := back x b.size b.kind h1 hxa
      by_cases hya : x + b.size = a
      · refine hp x b.size ?_ hya
        rcases h3 with h3 | h3 <;> rw [h3] at e1
        · exact .inl e1
        · exact .inr e1
      · exact c.adj x b d e1 (back _ d.size d.kind h2 hya) h3 h4

def G.setCh (g : G) (i : Nat) (l : List Nat) : G := { g with ch := fun j => if j = i then l else g.ch j }

theorem setCh_self (g : G) (i : Nat) (l : List Nat) : (g.setCh i l).ch i = l := by simp [G.setCh]
theorem setCh_ne {g : G} {i j : Nat} {l : List Nat} (h : j ≠ i) : (g.setCh i l).ch j = g.ch j := by simp [G.setCh, h]
theorem setCh_blk (g : G) (i : Nat) (l : List Nat) : (g.setCh i l).blk = g.blk := rfl

theorem Inv.size_lt {st : St} {g : G} (h : Inv st g) {a : Nat} {b : Blk} (hb : g.blk a = some b) : b.size < 2^40 := by
  obtain ⟨s, hs, h1, h2⟩ := h.geo.inn a b hb
  have := h.chunk s hs
  unfold Sub.lo Sub.hi at *
  omega

/-- Free blocks are at least 32 bytes apart. -/
theorem Geo.apart {subs : List Sub} {B : Nat → Option Blk} (h : Geo subs B) {a c : Nat} {b d : Blk}
    (hb : B a = some b) (hd : B c = some d) (hne : a ≠ c) : a + 32 ≤ c ∨ c + 32 ≤ a := by
  have h1 := h.al _ _ hb
  have h2 := h.al _ _ hd
  rcases Nat.lt_or_gt_of_ne hne with h5 | h5
  · have := h.disj a b c d hb hd h5; omega
  · have := h.disj c d a b hd hb h5; omega

/-- The state after pushing, as one description. -/
theorem pushFree_fb (st : St) (a n j : Nat) : (pushFree st a n).fb j = if j = bix n then a else st.fb j := by
  unfold pushFree St.setFb St.store
  simp only
  split <;> rfl

/-- S6: a hole is pushed to its free list. -/
theorem Inv.push {st : St} {g : G} (h : Inv st g) {a n : Nat} (hb : g.blk a = some ⟨n, .hole⟩)
    (hp : ∀ p q, g.blk p = some ⟨q, .free⟩ ∨ g.blk p = some ⟨q, .dv⟩ → p + q ≠ a)
    (hs : ∀ m, g.blk (a + n) ≠ some ⟨m, .free⟩ ∧ g.blk (a + n) ≠ some ⟨m, .dv⟩)
    (hnx : ∀ m w', g.blk (a + n) = some ⟨m, .used w'⟩ → st.mem (a + n) = w' + 2) :
    Inv (pushFree st a n) ((g.setK a n .free).setCh (bix n) (a :: g.ch (bix n))) ∧
    Fr st g (pushFree st a n) ((g.setK a n .free).setCh (bix n) (a :: g.ch (bix n))) := by
  have hal := h.geo.al _ _ hb
  simp only at hal
  have hsz : n < 2^40 := h.size_lt hb
  have hi : bix n < 288 := bix_lt hsz
  have hmk : mkFree n = n + 1 := by unfold mkFree; rw [clr_self hal.2.1]
  -- the four stores inside the hole
  obtain ⟨i1, f1⟩ := h.hole_write hb (x := a) (v := mkFree n) (by omega) (by omega)
  obtain ⟨i2, f2⟩ := i1.hole_write hb (x := a + n - 8) (v := mkFree n) (by omega) (by omega)
  obtain ⟨i3, f3⟩ := i2.hole_write hb (x := a + 8) (v := st.fb (bix n)) (by omega) (by omega)
  obtain ⟨i4, f4⟩ := i3.hole_write hb (x := a + 16) (v := bkt (bix n)) (by omega) (by omega)
  have hpf : pushFree st a n = ((if st.fb (bix n) ≠ 0 then
      ((((st.store a (mkFree n)).store (a + n - 8) (mkFree n)).store (a + 8) (st.fb (bix n))).store (a + 16) (bkt (bix n))).store (st.fb (bix n) + 16) a
      else (((st.store a (mkFree n)).store (a + n - 8) (mkFree n)).store (a + 8) (st.fb (bix n))).store (a + 16) (bkt (bix n)))).setFb (bix n) a := rfl
  have frs := ((f1.trans f2).trans f3).trans f4
  have m0 : ((((st.store a (mkFree n)).store (a + n - 8) (mkFree n)).store (a + 8) (st.fb (bix n))).store (a + 16) (bkt (bix n))).mem =
    upd (upd (upd (upd st.mem a (mkFree n)) (a + n - 8) (mkFree n)) (a + 8) (st.fb (bix n))) (a + 16) (bkt (bix n)) := rfl
  have s0 : ((((st.store a (mkFree n)).store (a + n - 8) (mkFree n)).store (a + 8) (st.fb (bix n))).store (a + 16) (bkt (bix n))).fb = st.fb := rfl
  have s1 : ((((st.store a (mkFree n)).store (a + n - 8) (mkFree n)).store (a + 8) (st.fb (bix n))).store (a + 16) (bkt (bix n))).subs = st.subs := rfl
  have s2 : ((((st.store a (mkFree n)).store (a + n - 8) (mkFree n)).store (a + 8) (st.fb (bix n))).store (a + 16) (bkt (bix n))).segFree = st.segFree := rfl
  have s3 : ((((st.store a (mkFree n)).store (a + n - 8) (mkFree n)).store (a + 8) (st.fb (bix n))).store (a + 16) (bkt (bix n))).segSize = st.segSize := rfl
  rw [hpf]
  generalize (((st.store a (mkFree n)).store (a + n - 8) (mkFree n)).store (a + 8) (st.fb (bix n))).store (a + 16) (bkt (bix n)) = t at *
  have ma : t.mem a = n + 1 := by
    rw [m0, upd_ne (by omega), upd_ne (by omega), upd_ne (by omega), upd_self, hmk]
  have mt : t.mem (a + n - 8) = n + 1 := by
    rw [m0, upd_ne (by omega), upd_ne (by omega), upd_self, hmk]
  have m8 : t.mem (a + 8) = st.fb (bix n) := by rw [m0, upd_ne (by omega), upd_self]
  have m16 : t.mem (a + 16) = bkt (bix n) := by rw [m0, upd_self]
  have mnx : t.mem (a + n) = st.mem (a + n) := by
    rw [m0, upd_ne (by omega), upd_ne (by omega), upd_ne (by omega), upd_ne (by omega)]
  have c := i4.cont
  have hhead : ∀ l, g.ch (bix n) = l → ∀ x ∈ l, ∃ q, g.blk x = some ⟨q, .free⟩ ∧ bix q = bix n := by
    intro l hl x hx
    exact (c.mem_ch _ hi x).1 (hl ▸ hx)
  have hfb : st.fb (bix n) = (g.ch (bix n)).headD 0 := by rw [← s0]; exact (c.list _ hi).1
  -- memory after linking
  obtain ⟨mem', hmem', hcase⟩ : ∃ mem' : Nat → Nat, (((if st.fb (bix n) ≠ 0 then t.store (st.fb (bix n) + 16) a else t)).setFb (bix n) a)
      = { t with mem := mem', fb := upd t.fb (bix n) a } ∧
      ((g.ch (bix n) = [] ∧ mem' = t.mem) ∨ ∃ hd tl, g.ch (bix n) = hd :: tl ∧ mem' = upd t.mem (hd + 16) a) := by
    cases hl : g.ch (bix n) with
    | nil =>
      rw [hl] at hfb
      simp only [List.headD_nil] at hfb
      refine ⟨t.mem, ?_, .inl ⟨rfl, rfl⟩⟩
      rw [if_neg (by simp [hfb])]; rfl
    | cons hd tl =>
      rw [hl] at hfb
      simp only [List.headD_cons] at hfb
      obtain ⟨q, hq, _⟩ := hhead _ hl hd (by simp)
      have := h.geo.pos hq
      refine ⟨upd t.mem (hd + 16) a, ?_, .inr ⟨hd, tl, rfl, rfl⟩⟩
      rw [hfb, if_pos (by omega)]; rfl
  rw [hmem']
  have chg : ∀ y, mem' y ≠ t.mem y → ∃ x q, g.blk x = some ⟨q, .free⟩ ∧ (y = x + 8 ∨ y = x + 16) ∧ y = x + 16 ∧ x ∈ g.ch (bix n) := by
    intro y hy
    rcases hcase with ⟨_, rfl⟩ | ⟨hd, tl, hl, rfl⟩
    · exact absurd rfl hy
    · by_cases hyh : y = hd + 16
      · obtain ⟨q, hq, _⟩ := hhead _ hl hd (by simp)
        exact ⟨hd, q, hq, .inr hyh, hyh, by rw [hl]; simp⟩
      · exact absurd (upd_ne hyh) hy
  have ina : ∀ y, a ≤ y → y < a + n → mem' y = t.mem y := by
    intro y h1 h2
    by_contra hne
    obtain ⟨x, q, hx, h3, _⟩ := chg y hne
    have hal2 := h.geo.al _ _ hx
    simp only at hal2
    obtain ⟨rfl, e⟩ := h.geo.eq_of_overlap hb hx (x := y) h1 h2 (by omega) (by simp only; omega)
    injection e with _ e; simp at e
  have core' : Core st.subs mem' g.blk := by
    rw [← s1]
    exact Core.relink c.toCore (s1 ▸ h.geo) (fun y hy => by obtain ⟨x, q, h1, h2, _⟩ := chg y hy; exact ⟨x, q, h1, h2⟩)
  have core'' : Core st.subs mem' (g.setK a n .free).blk := by
    apply core'.to_free h.geo hb (by rw [ina _ (by omega) (by omega), ma]) (by rw [ina _ (by omega) (by omega), mt]) hp hs
    intro m w' hnb
    have : mem' (a + n) = t.mem (a + n) := by
      by_contra hne
      obtain ⟨x, q, hx, h3, _⟩ := chg _ hne
      have hal2 := h.geo.al _ _ hx
      have hal3 := h.geo.al _ _ hnb
      simp only at hal2 hal3
      obtain ⟨_, e⟩ := h.geo.eq_of_overlap hnb hx (x := a + n) (by omega) (by simp only; omega) (by omega) (by simp only; omega)
      injection e with _ e; simp at e
    rw [this, mnx]; exact hnx m w' hnb
  refine ⟨⟨?_, ⟨?_, ?_, ?_⟩, ?_, ?_⟩, ?_⟩
  · show Geo t.subs _; rw [s1]; exact h.geo.setK hb
  · show Core t.subs mem' _; rw [s1]; exact core''
  · intro j hj
    show upd t.fb (bix n) a j = _ ∧ DL mem' _ _ ∧ _
    by_cases hji : j = bix n
    · subst hji
      rw [setCh_self, upd_self]
      refine ⟨rfl, ?_, ?_⟩
      · refine ⟨by rw [ina _ (by omega) (by omega), m16], by rw [ina _ (by omega) (by omega), m8, hfb], ?_⟩
        obtain ⟨_, l2, l3⟩ := c.list _ hi
        rcases hcase with ⟨hl, rfl⟩ | ⟨hd, tl, hl, rfl⟩
        · rw [hl]; trivial
        · rw [hl] at l2 l3 ⊢
          obtain ⟨q, hq, _⟩ := hhead _ hl hd (by simp)
          refine ⟨upd_self _ _ _, by rw [upd_ne (by omega)]; exact l2.2.1, DL.congr l2.2.2 ?_⟩
          intro x hx
          obtain ⟨q', hq', _⟩ := hhead _ hl x (by simp [hx])
          have hne : x ≠ hd := by rintro rfl; simp [hx] at l3
          have := h.geo.apart hq' hq hne
          exact ⟨upd_ne (by omega), upd_ne (by omega)⟩
      · rw [List.nodup_cons]
        refine ⟨?_, (c.list _ hi).2.2⟩
        intro ha
        obtain ⟨q, hq, _⟩ := (c.mem_ch _ hi a).1 ha
        rw [hb] at hq; simp at hq
    · rw [setCh_ne hji, upd_ne hji]
      obtain ⟨l1, l2, l3⟩ := c.list j hj
      refine ⟨l1, DL.congr l2 ?_, l3⟩
      intro x hx
      obtain ⟨q, hq, hqj⟩ := (c.mem_ch j hj x).1 hx
      have : ∀ y, (y = x + 8 ∨ y = x + 16) → mem' y = t.mem y := by
        intro y hy
        by_contra hne
        obtain ⟨x', q', hx', h3, h4, h5⟩ := chg y hne
        have hxx : x = x' := by
          by_contra hne
          have := h.geo.apart hq hx' hne
          omega
        subst hxx
        obtain ⟨q'', e, e2⟩ := (c.mem_ch _ hi x).1 h5
        rw [hq] at e; injection e with e; injection e with e; subst e
        omega
      exact ⟨this _ (.inl rfl), this _ (.inr rfl)⟩
  · intro j hj x
    by_cases hji : j = bix n
    · subst hji
      rw [setCh_self, List.mem_cons]
      have := c.mem_ch _ hi x
      constructor
      · rintro (rfl | hx)
        · exact ⟨n, setK_some.2 (.inl ⟨rfl, rfl⟩), rfl⟩
        · obtain ⟨q, h1, h2⟩ := this.1 hx
          refine ⟨q, setK_some.2 (.inr ⟨?_, h1⟩), h2⟩
          rintro rfl
          rw [hb] at h1; simp at h1
      · rintro ⟨q, h1, h2⟩
        rcases setK_some.1 h1 with ⟨rfl, _⟩ | ⟨_, h3⟩
        · exact .inl rfl
        · exact .inr (this.2 ⟨q, h3, h2⟩)
    · rw [setCh_ne hji]
      show x ∈ g.ch j ↔ _
      rw [c.mem_ch j hj x]
      constructor
      · rintro ⟨q, h1, h2⟩
        refine ⟨q, setK_some.2 (.inr ⟨?_, h1⟩), h2⟩
        rintro rfl
        rw [hb] at h1; simp at h1
      · rintro ⟨q, h1, h2⟩
        rcases setK_some.1 h1 with ⟨rfl, h3⟩ | ⟨_, h3⟩
        · injection h3 with h3; subst h3; exact absurd h2.symm hji
        · exact ⟨q, h3, h2⟩
  · show ∀ s ∈ t.subs, _ ∧ _ ∧ _ ≤ t.segFree ∧ _; rw [s1, s2]; exact h.chunk
  · show t.segFree % 8 = 0 ∧ 0 < t.segFree ∧ t.segFree ≤ t.segSize ∧ t.segSize ≤ _; rw [s2, s3]; exact h.segAl
  · intro x hx
    obtain ⟨e1, p1⟩ := frs x hx
    constructor
    · show mem' x = _
      rw [← e1]
      by_contra hne
      obtain ⟨x', q', hx', h3, _⟩ := chg x hne
      have hal2 := h.geo.al _ _ hx'
      simp only at hal2
      obtain ⟨⟨w, e⟩, _⟩ := hx.2.2 _ _ hx' (by omega) (by simp only; omega)
      simp at e
    · refine ⟨p1.1, p1.2.1, ?_⟩
      intro y b hy h1 h2
      rcases setK_some.1 hy with ⟨rfl, rfl⟩ | ⟨_, h3⟩
      · obtain ⟨⟨w', h3⟩, _⟩ := hx.2.2 _ _ hb h1 h2
        simp at h3
      · exact hx.2.2 y b h3 h1 h2

/-! ## Removal -/

theorem DL_at {mem : Nat → Nat} : ∀ {l1 : List Nat} {p a : Nat} {l2 : List Nat}, DL mem p (l1 ++ a :: l2) →
    mem (a + 8) = l2.headD 0 ∧ mem (a + 16) = l1.getLastD p := by
  intro l1
  induction l1 with
  | nil => intro p a l2 h; exact ⟨h.2.1, h.1⟩
  | cons c l1 ih =>
    intro p a l2 h
    have := ih h.2.2
    refine ⟨this.1, ?_⟩
    rw [this.2]; exact List.getLastD_cons.symm

theorem DL_remove {mem mem' : Nat → Nat} {a : Nat} {l2 : List Nat} : ∀ {l1 : List Nat} {p : Nat}, DL mem p (l1 ++ a :: l2) →
    (l1 ++ a :: l2).Nodup →
    (∀ x ∈ l1 ++ l2, mem' (x + 8) = if l1.getLast? = some x then l2.headD 0 else mem (x + 8)) →
    (∀ x ∈ l1 ++ l2, mem' (x + 16) = if l2.head? = some x then l1.getLastD p else mem (x + 16)) →
    DL mem' p (l1 ++ l2) := by
  intro l1
  induction l1 with
  | nil =>
    intro p h hn h8 h16
    cases l2 with
    | nil => trivial
    | cons b l =>
      simp only [List.nil_append, List.nodup_cons, List.mem_cons] at hn
      refine ⟨?_, ?_, DL.congr h.2.2.2.2 ?_⟩
      · have := h16 b (by simp); simpa using this
      · have := h8 b (by simp)
        simp only [List.getLast?_nil, reduceCtorEq, if_false] at this
        rw [this]; exact h.2.2.2.1
      · intro x hx
        have e1 := h8 x (by simp [hx])
        have e2 := h16 x (by simp [hx])
        simp only [List.getLast?_nil, reduceCtorEq, if_false] at e1
        rw [if_neg] at e2
        · exact ⟨e1, e2⟩
        · simp only [List.head?_cons, Option.some.injEq]
          rintro rfl; exact hn.2.1 hx
  | cons c l1 ih =>
    intro p h hn h8 h16
    simp only [List.cons_append, List.nodup_cons, List.mem_append, List.mem_cons, not_or] at hn
    obtain ⟨⟨c1, c2, c3⟩, hn2⟩ := hn
    have hc2 : l2.head? ≠ some c := fun e => c3 (List.mem_of_mem_head? e)
    refine ⟨?_, ?_, ?_⟩
    · rw [h16 c (by simp), if_neg hc2]; exact h.1
    · show mem' (c + 8) = (l1 ++ l2).headD 0
      rw [h8 c (by simp)]
      cases l1 with
      | nil => simp
      | cons d l1 =>
        rw [if_neg]
        · have := h.2.1; simpa using this
        · rw [List.getLast?_cons_cons]
          exact fun e => c1 (List.mem_of_mem_getLast? e)
    · apply ih h.2.2 hn2
      · intro x hx
        rw [h8 x (by simp only [List.cons_append, List.mem_cons]; exact .inr hx)]
        cases l1 with
        | nil =>
          simp only [List.nil_append] at hx
          have : c ≠ x := by rintro rfl; exact c3 hx
          simp [this]
        | cons d l1 => rw [List.getLast?_cons_cons]
      · intro x hx
        rw [h16 x (by simp only [List.cons_append, List.mem_cons]; exact .inr hx), List.getLastD_cons]

/-- Effect of removing `a` (between `l1` and `l2`) from list `i`. -/
theorem unlinkFree_spec {st : St} {g : G} (h : Inv st g) {a n : Nat} (hb : g.blk a = some ⟨n, .free⟩) {l1 l2 : List Nat}
    (hl : g.ch (bix n) = l1 ++ a :: l2) :
    ∃ mem' fb', unlinkFree st a n = { st with mem := mem', fb := fb' } ∧
      (∀ j, fb' j = if j = bix n then (l1 ++ l2).headD 0 else st.fb j) ∧
      (∀ y, mem' y = if l2.head?.map (· + 16) = some y then l1.getLastD (bkt (bix n))
        else if l1.getLast?.map (· + 8) = some y then l2.headD 0 else st.mem y) := by
  have hi : bix n < 288 := bix_lt (h.size_lt hb)
  obtain ⟨e1, e2, e3⟩ := h.cont.list _ hi
  rw [hl] at e1 e2 e3
  obtain ⟨d1, d2⟩ := DL_at e2
  have pos : ∀ x ∈ l1 ++ a :: l2, 32 < x := by
    intro x hx
    rw [← hl] at hx
    obtain ⟨q, hq, _⟩ := (h.cont.mem_ch _ hi x).1 hx
    exact h.geo.pos hq
  unfold unlinkFree
  simp only
  rw [d1, d2]
  cases l1 with
  | nil =>
    have e1' : st.fb (bix n) = a := by simpa using e1
    rw [if_pos e1']
    cases l2 with
    | nil =>
      refine ⟨st.mem, upd st.fb (bix n) 0, by simp [St.setFb], ?_, ?_⟩
      · intro j; simp [upd]
      · intro y; simp
    | cons b l2 =>
      have := pos b (by simp)
      refine ⟨upd st.mem (b + 16) (bkt (bix n)), upd st.fb (bix n) b, ?_, ?_, ?_⟩
      · have hb0 : (b :: l2).headD 0 ≠ 0 := by simp only [List.headD_cons]; omega
        rw [if_pos hb0]; simp [St.setFb, St.store]
      · intro j; simp [upd]
      · intro y; simp [upd, eq_comm]
  | cons c l1 =>
    have e1' : st.fb (bix n) = c := by simpa using e1
    have hca : c ≠ a := by
      rintro rfl
      simp at e3
    rw [if_neg (by omega)]
    have hlast : ∃ z, (c :: l1).getLast? = some z ∧ (c :: l1).getLastD (bkt (bix n)) = z ∧ z ∈ c :: l1 := by
      refine ⟨(c :: l1).getLast (by simp), List.getLast?_eq_some_getLast _, ?_, List.getLast_mem _⟩
      rw [List.getLastD_eq_getLast?, List.getLast?_eq_some_getLast (by simp)]; rfl
    obtain ⟨z, z1, z2, z3⟩ := hlast
    rw [z1, z2]
    cases l2 with
    | nil =>
      refine ⟨upd st.mem (z + 8) 0, st.fb, by simp [St.store], ?_, ?_⟩
      · intro j; by_cases hj : j = bix n
        · subst hj; simp [e1']
        · simp [hj]
      · intro y; simp [upd, eq_comm]
    | cons b l2 =>
      have := pos b (by simp)
      refine ⟨upd (upd st.mem (z + 8) b) (b + 16) z, st.fb, ?_, ?_, ?_⟩
      · have hb0 : (b :: l2).headD 0 ≠ 0 := by simp only [List.headD_cons]; omega
        rw [if_pos hb0]; simp [St.store]
      · intro j; by_cases hj : j = bix n
        · subst hj; simp [e1']
        · simp [hj]
      · intro y; simp [upd, eq_comm]

/-- S7: a free block leaves its list. -/
theorem Inv.unlink {st : St} {g : G} (h : Inv st g) {a n : Nat} (hb : g.blk a = some ⟨n, .free⟩) :
    ∃ l, Inv (unlinkFree st a n) ((g.setK a n .hole).setCh (bix n) l) ∧
    Fr st g (unlinkFree st a n) ((g.setK a n .hole).setCh (bix n) l) ∧
    (∀ j, 288 ≤ j → (unlinkFree st a n).fb j = st.fb j) ∧
    (∀ y, (unlinkFree st a n).mem y ≠ st.mem y → ∃ x q, g.blk x = some ⟨q, .free⟩ ∧ (y = x + 8 ∨ y = x + 16)) ∧
    (unlinkFree st a n).subs = st.subs ∧ (unlinkFree st a n).segFree = st.segFree ∧ (unlinkFree st a n).segSize = st.segSize := by
  have hi : bix n < 288 := bix_lt (h.size_lt hb)
  have c := h.cont
  obtain ⟨l1, l2, hl⟩ := List.append_of_mem ((c.mem_ch _ hi a).2 ⟨n, hb, rfl⟩)
  obtain ⟨mem', fb', he, hfb, hmem⟩ := unlinkFree_spec h hb hl
  obtain ⟨e1, e2, e3⟩ := c.list _ hi
  have blkOf : ∀ x ∈ l1 ++ a :: l2, ∃ q, g.blk x = some ⟨q, .free⟩ ∧ bix q = bix n := by
    intro x hx
    rw [← hl] at hx
    exact (c.mem_ch _ hi x).1 hx
  have chg : ∀ y, mem' y ≠ st.mem y → ∃ x ∈ l1 ++ l2, y = x + 8 ∨ y = x + 16 := by
    intro y hy
    have := hmem y
    by_cases h1 : l2.head?.map (· + 16) = some y
    · simp only [Option.map_eq_some_iff] at h1
      obtain ⟨x, hx, rfl⟩ := h1
      exact ⟨x, by simp [List.mem_of_mem_head? hx], .inr rfl⟩
    · rw [if_neg h1] at this
      by_cases h2 : l1.getLast?.map (· + 8) = some y
      · simp only [Option.map_eq_some_iff] at h2
        obtain ⟨x, hx, rfl⟩ := h2
        exact ⟨x, by simp [List.mem_of_mem_getLast? hx], .inl rfl⟩
      · rw [if_neg h2] at this; exact absurd this hy
  have sub : ∀ x ∈ l1 ++ l2, x ∈ l1 ++ a :: l2 := by intro x hx; simp at hx ⊢; tauto
  have chgB : ∀ y, mem' y ≠ st.mem y → ∃ x q, g.blk x = some ⟨q, .free⟩ ∧ (y = x + 8 ∨ y = x + 16) := by
    intro y hy
    obtain ⟨x, hx, h1⟩ := chg y hy
    obtain ⟨q, hq, _⟩ := blkOf x (sub x hx)
    exact ⟨x, q, hq, h1⟩
  rw [hl] at e1 e2 e3
  refine ⟨l1 ++ l2, ?_⟩
  rw [he]
  refine ⟨⟨?_, ⟨?_, ?_, ?_⟩, h.chunk, h.segAl⟩, ?_, ?_, chgB, rfl, rfl, rfl⟩
  · exact h.geo.setK hb
  · exact ((c.toCore.relink h.geo chgB).to_hole hb)
  · intro j hj
    show fb' j = _ ∧ DL mem' _ _ ∧ _
    by_cases hji : j = bix n
    · subst hji
      rw [setCh_self, hfb, if_pos rfl]
      have inj : ∀ x ∈ l1 ++ l2, ∀ y ∈ l1 ++ l2, ∀ u v, (u = 8 ∨ u = 16) → (v = 8 ∨ v = 16) → x + u = y + v → x = y ∧ u = v := by
        intro x hx y hy u v hu hv hxy
        have : x = y := by
          by_contra hne
          obtain ⟨q, hq, _⟩ := blkOf x (sub x hx)
          obtain ⟨q', hq', _⟩ := blkOf y (sub y hy)
          have := h.geo.apart hq hq' hne
          omega
        omega
      refine ⟨rfl, DL_remove e2 e3 ?_ ?_, ?_⟩
      · intro x hx
        rw [hmem, if_neg]
        · have : (l1.getLast?.map (· + 8) = some (x + 8)) ↔ l1.getLast? = some x := by
            simp
          simp only [this]
        · intro h1
          simp only [Option.map_eq_some_iff] at h1
          obtain ⟨z, hz, h2⟩ := h1
          have := inj z (by simp [List.mem_of_mem_head? hz]) x hx 16 8 (by simp) (by simp) h2
          omega
      · intro x hx
        rw [hmem]
        have : (l2.head?.map (· + 16) = some (x + 16)) ↔ l2.head? = some x := by
          simp
        simp only [this]
        by_cases h1 : l2.head? = some x
        · rw [if_pos h1, if_pos h1]
        · rw [if_neg h1, if_neg h1, if_neg]
          intro h1
          simp only [Option.map_eq_some_iff] at h1
          obtain ⟨z, hz, h2⟩ := h1
          have := inj z (by simp [List.mem_of_mem_getLast? hz]) x hx 8 16 (by simp) (by simp) h2
          omega
      · exact e3.sublist (by simp)
    · rw [setCh_ne hji, hfb, if_neg hji]
      obtain ⟨f1, f2, f3⟩ := c.list j hj
      refine ⟨f1, DL.congr f2 ?_, f3⟩
      intro x hx
      obtain ⟨q, hq, hqj⟩ := (c.mem_ch j hj x).1 hx
      have : ∀ y, (y = x + 8 ∨ y = x + 16) → mem' y = st.mem y := by
        intro y hy
        by_contra hne
        obtain ⟨z, hz, h1⟩ := chg y hne
        obtain ⟨q', hq', hqi⟩ := blkOf z (sub z hz)
        have hxz : x = z := by
          by_contra hne
          have := h.geo.apart hq hq' hne
          omega
        subst hxz
        rw [hq] at hq'; injection hq' with e; injection e with e; subst e
        omega
      exact ⟨this _ (.inl rfl), this _ (.inr rfl)⟩
  · intro j hj x
    have key : ∀ q, (((g.setK a n .hole).setCh (bix n) (l1 ++ l2)).blk x = some ⟨q, .free⟩) ↔ (x ≠ a ∧ g.blk x = some ⟨q, .free⟩) := by
      intro q
      rw [setCh_blk, setK_some]
      simp
    simp only [key]
    by_cases hji : j = bix n
    · subst hji
      rw [setCh_self]
      have e4 := c.mem_ch _ hi x
      rw [hl] at e4
      constructor
      · intro hx
        have hxa : x ≠ a := by
          rintro rfl
          rw [List.nodup_append] at e3
          simp only [List.mem_append] at hx
          rcases hx with hx | hx
          · exact e3.2.2 x hx x (by simp) rfl
          · have := e3.2.1; simp [hx] at this
        obtain ⟨q, h1, h2⟩ := e4.1 (sub x hx)
        exact ⟨q, ⟨hxa, h1⟩, h2⟩
      · rintro ⟨q, ⟨hxa, h1⟩, h2⟩
        have := e4.2 ⟨q, h1, h2⟩
        simp [hxa] at this ⊢; exact this
    · rw [setCh_ne hji]
      show x ∈ g.ch j ↔ _
      rw [c.mem_ch j hj x]
      constructor
      · rintro ⟨q, h1, h2⟩
        refine ⟨q, ⟨?_, h1⟩, h2⟩
        rintro rfl
        rw [hb] at h1; injection h1 with h1; injection h1 with h1; subst h1
        exact hji h2.symm
      · rintro ⟨q, ⟨_, h1⟩, h2⟩; exact ⟨q, h1, h2⟩
  · intro x hx
    constructor
    · show mem' x = _
      by_contra hne
      obtain ⟨x', q', hx', h3⟩ := chgB x hne
      have hal2 := h.geo.al _ _ hx'
      simp only at hal2
      obtain ⟨⟨w, e⟩, _⟩ := hx.2.2 _ _ hx' (by omega) (by simp only; omega)
      simp at e
    · exact ((Fr.to_hole hb (by simp)) x hx).2
  · intro j hj
    show fb' j = _
    rw [hfb, if_neg (by omega)]

/-- Taking the head of a list is removing it. -/
theorem popFree_eq {st : St} {g : G} (h : Inv st g) {i : Nat} (hi : i < 288) (hne : st.fb i ≠ 0) :
    ∃ n, g.blk (st.fb i) = some ⟨n, .free⟩ ∧ bix n = i ∧ popFree st i = unlinkFree st (st.fb i) n := by
  obtain ⟨e1, e2, e3⟩ := h.cont.list i hi
  cases hl : g.ch i with
  | nil => rw [hl] at e1; simp at e1; exact absurd e1 hne
  | cons a l =>
    rw [hl] at e1 e2
    simp only [List.headD_cons] at e1
    obtain ⟨n, h1, h2⟩ := (h.cont.mem_ch i hi a).1 (by rw [hl]; simp)
    rw [← e1] at h1
    refine ⟨n, h1, h2, ?_⟩
    unfold popFree unlinkFree
    simp only
    rw [h2, if_pos rfl, e1, e2.1]

end WG.Varlen
