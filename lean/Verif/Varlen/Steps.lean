import Verif.Varlen.Inv
/-! Elementary steps preserving the allocator invariant, and what they leave unchanged. -/
namespace WG.Varlen

/-- Addresses the allocator must not change: below the segment's free pointer or behind the segment, not in a free block, victim or hole,
not the header of a live object. -/
def Prot (st : St) (g : G) (x : Nat) : Prop :=
  (x < st.segFree ∨ st.segSize ≤ x) ∧ (∀ s ∈ st.subs, x ≠ s.aoff ∧ x ≠ s.hi) ∧
  ∀ a b, g.blk a = some b → a ≤ x → x < a + b.size → (∃ w, b.kind = .used w) ∧ x ≠ a

def Fr (st : St) (g : G) (st' : St) (g' : G) : Prop := ∀ x, Prot st g x → st'.mem x = st.mem x ∧ Prot st' g' x

theorem Fr.trans {s1 s2 s3 : St} {g1 g2 g3 : G} (h1 : Fr s1 g1 s2 g2) (h2 : Fr s2 g2 s3 g3) : Fr s1 g1 s3 g3 := by
  intro x hx
  obtain ⟨a, b⟩ := h1 x hx
  obtain ⟨c, d⟩ := h2 x b
  exact ⟨c.trans a, d⟩

theorem Fr.refl (s : St) (g : G) : Fr s g s g := fun _ h => ⟨rfl, h⟩

theorem setK_some {g : G} {a n : Nat} {k : Kind} {x : Nat} {b : Blk} :
    (g.setK a n k).blk x = some b ↔ (x = a ∧ b = ⟨n, k⟩) ∨ (x ≠ a ∧ g.blk x = some b) := by
  by_cases hx : x = a
  · subst hx; simp [G.setK, setB_self, eq_comm]
  · simp [G.setK, setB_ne hx, hx]

theorem upd_self (f : Nat → Nat) (x v : Nat) : upd f x v x = v := by simp [upd]
theorem upd_ne {f : Nat → Nat} {x y v : Nat} (h : y ≠ x) : upd f x v y = f y := by simp [upd, h]

theorem DL.congr {mem mem' : Nat → Nat} : ∀ {l : List Nat} {p : Nat}, DL mem p l →
    (∀ a ∈ l, mem' (a + 8) = mem (a + 8) ∧ mem' (a + 16) = mem (a + 16)) → DL mem' p l := by
  intro l
  induction l with
  | nil => intros; trivial
  | cons a l ih =>
    intro p h he
    obtain ⟨h1, h2, h3⟩ := h
    have := he a (by simp)
    exact ⟨this.2 ▸ h1, this.1 ▸ h2, ih h3 (fun x hx => he x (by simp [hx]))⟩

/-- Addresses the invariant speaks about. -/
def Rel (subs : List Sub) (g : G) (x : Nat) : Prop :=
  (∃ s ∈ subs, x = s.aoff ∨ x = s.hi) ∨ ∃ a b, g.blk a = some b ∧
    ((∃ w, b.kind = .used w) ∧ x = a ∨ (b.kind = .free ∨ b.kind = .dv) ∧ a ≤ x ∧ x < a + b.size)

/-- S2: the invariant depends only on the relevant words. -/
theorem Inv.congr_mem {st : St} {g : G} (h : Inv st g) {mem' : Nat → Nat}
    (he : ∀ x, Rel st.subs g x → mem' x = st.mem x) : Inv { st with mem := mem' } g := by
  refine ⟨h.geo, ?_, h.chunk, h.segAl⟩
  have c := h.cont
  have hu : ∀ a n w, g.blk a = some ⟨n, .used w⟩ → mem' a = st.mem a := by
    intro a n w hb
    exact he a (.inr ⟨a, _, hb, .inl ⟨⟨w, rfl⟩, rfl⟩⟩)
  have hf : ∀ a n x, (g.blk a = some ⟨n, .free⟩ ∨ g.blk a = some ⟨n, .dv⟩) → a ≤ x → x < a + n → mem' x = st.mem x := by
    rintro a n x (hb | hb) h1 h2
    · exact he x (.inr ⟨a, _, hb, .inr ⟨.inl rfl, h1, h2⟩⟩)
    · exact he x (.inr ⟨a, _, hb, .inr ⟨.inr rfl, h1, h2⟩⟩)
  refine Cont.mk (Core.mk ?_ ?_ ?_ ?_ ?_ ?_ c.adj) ?_ c.mem_ch
  · intro s hs
    show mem' _ = _ ∧ mem' _ = _
    rw [he _ (.inl ⟨s, hs, .inl rfl⟩), he _ (.inl ⟨s, hs, .inr rfl⟩)]
    exact c.marker s hs
  · intro a n w hb
    have := c.used a n w hb
    show _ ∧ _ ∧ (mem' a = w ∨ mem' a = w + 2)
    rw [hu a n w hb]; exact this
  · intro a n m w h1 h2
    show mem' _ = _
    rw [hu _ _ _ h2]; exact c.flag_up a n m w h1 h2
  · intro x m w h1 h2
    have : st.mem x = w + 2 := by rw [← hu x m w h1]; exact h2
    exact c.flag_dn x m w h1 this
  · intro a n hb
    have hal := h.geo.al a _ hb
    simp only at hal
    show mem' _ = _ ∧ mem' _ = _
    rw [hf a n a (.inl hb) (by omega) (by omega), hf a n _ (.inl hb) (by omega) (by omega)]
    exact c.free a n hb
  · intro a n hb
    have hal := h.geo.al a _ hb
    simp only at hal
    show mem' _ = _ ∧ mem' _ = _
    rw [hf a n a (.inr hb) (by omega) (by omega), hf a n _ (.inr hb) (by omega) (by omega)]
    exact c.dv a n hb
  · intro i hi
    obtain ⟨l1, l2, l3⟩ := c.list i hi
    refine ⟨l1, ?_, l3⟩
    apply DL.congr l2
    intro a ha
    obtain ⟨n, hb, _⟩ := (c.mem_ch i hi a).1 ha
    have hal := h.geo.al a _ hb
    simp only at hal
    exact ⟨hf a n _ (.inl hb) (by omega) (by omega), hf a n _ (.inl hb) (by omega) (by omega)⟩

/-- Writing inside a hole. -/
theorem Inv.hole_write {st : St} {g : G} (h : Inv st g) {a n x v : Nat} (hb : g.blk a = some ⟨n, .hole⟩)
    (h1 : a ≤ x) (h2 : x < a + n) : Inv (st.store x v) g ∧ Fr st g (st.store x v) g := by
  constructor
  · apply h.congr_mem
    intro y hy
    apply upd_ne
    rintro rfl
    rcases hy with ⟨s, hs, h3⟩ | ⟨c, d, hd, h3⟩
    · have := h.geo.marker_out hs hb
      simp only at this
      rcases h3 with rfl | rfl <;> omega
    · have hal := h.geo.al c d hd
      have hin : c ≤ y ∧ y < c + d.size := by
        rcases h3 with ⟨_, rfl⟩ | ⟨_, h3⟩
        · omega
        · exact h3
      obtain ⟨_, rfl⟩ := h.geo.eq_of_overlap hb hd h1 h2 hin.1 hin.2
      rcases h3 with ⟨⟨w, h3⟩, _⟩ | ⟨h3 | h3, _⟩ <;> simp at h3
  · intro y hy
    refine ⟨upd_ne ?_, hy⟩
    rintro rfl
    obtain ⟨⟨w, h3⟩, _⟩ := hy.2.2 a _ hb h1 h2
    simp at h3

/-- A block becomes a hole. -/
theorem Core.to_hole {subs : List Sub} {mem : Nat → Nat} {g : G} (c : Core subs mem g.blk) {a n : Nat} {k : Kind}
    (hb : g.blk a = some ⟨n, k⟩) : Core subs mem (g.setK a n .hole).blk := by
  have back : ∀ x m k', (g.setK a n .hole).blk x = some ⟨m, k'⟩ → k' ≠ .hole → g.blk x = some ⟨m, k'⟩ := by
    intro x m k' hx hne
    rcases setK_some.1 hx with ⟨_, h2⟩ | ⟨_, h2⟩
    · injection h2 with _ h2; exact absurd h2 hne
    · exact h2
  refine ⟨c.marker, ?_, ?_, ?_, ?_, ?_, ?_⟩
  · intro x m w hx; exact c.used x m w (back _ _ _ hx (by simp))
  · intro x m m' w h1 h2; exact c.flag_up x m m' w (back _ _ _ h1 (by simp)) (back _ _ _ h2 (by simp))
  · intro x m w h1 h2
    obtain ⟨p, q, h3, h4⟩ := c.flag_dn x m w (back _ _ _ h1 (by simp)) h2
    refine ⟨p, q, ?_, h4⟩
    by_cases hp : p = a
    · subst hp
      right
      rw [setK_some]; left
      rcases h3 with h3 | h3 <;> (rw [hb] at h3; injection h3 with h3; injection h3 with h3 h5; subst h3; exact ⟨rfl, rfl⟩)
    · rcases h3 with h3 | h3
      · exact .inl (setK_some.2 (.inr ⟨hp, h3⟩))
      · exact .inr (setK_some.2 (.inr ⟨hp, h3⟩))
  · intro x m hx; exact c.free x m (back _ _ _ hx (by simp))
  · intro x m hx; exact c.dv x m (back _ _ _ hx (by simp))
  · intro x b d h1 h2 h3 h4
    have e1 : g.blk x = some b := back x b.size b.kind h1 (by rintro h5; rw [h5] at h3; simp at h3)
    have e2 : g.blk (x + b.size) = some d := back _ d.size d.kind h2 (by rintro h5; rw [h5] at h4; simp at h4)
    exact c.adj x b d e1 e2 h3 h4

/-- S1: a used block or the victim becomes a hole. -/
theorem Inv.to_hole {st : St} {g : G} (h : Inv st g) {a n : Nat} {k : Kind} (hb : g.blk a = some ⟨n, k⟩)
    (hk : k ≠ .free) : Inv st (g.setK a n .hole) := by
  have c := h.cont
  refine ⟨h.geo.setK hb, ⟨c.toCore.to_hole hb, c.list, ?_⟩, h.chunk, h.segAl⟩
  intro i hi x
  show x ∈ g.ch i ↔ _
  rw [c.mem_ch i hi x]
  constructor
  · rintro ⟨m, h1, h2⟩
    refine ⟨m, setK_some.2 (.inr ⟨?_, h1⟩), h2⟩
    rintro rfl
    rw [hb] at h1; injection h1 with h1; injection h1 with _ h1; exact hk h1
  · rintro ⟨m, h1, h2⟩
    refine ⟨m, ?_, h2⟩
    rcases setK_some.1 h1 with ⟨_, h2⟩ | ⟨_, h2⟩
    · injection h2 with _ h2; cases h2
    · exact h2

theorem Prot.to_hole {st : St} {g : G} {a n x : Nat} {k : Kind} (hb : g.blk a = some ⟨n, k⟩) (hp : Prot st g x)
    (hx : ¬ (a ≤ x ∧ x < a + n)) : Prot st (g.setK a n .hole) x := by
  refine ⟨hp.1, hp.2.1, ?_⟩
  intro y b hy h1 h2
  rcases setK_some.1 hy with ⟨rfl, rfl⟩ | ⟨_, h3⟩
  · exact absurd ⟨h1, h2⟩ hx
  · exact hp.2.2 y b h3 h1 h2

theorem Fr.to_hole {st : St} {g : G} {a n : Nat} {k : Kind} (hb : g.blk a = some ⟨n, k⟩)
    (hk : ∀ w, k ≠ .used w) : Fr st g st (g.setK a n .hole) := by
  intro x hx
  refine ⟨rfl, Prot.to_hole hb hx ?_⟩
  rintro ⟨h1, h2⟩
  obtain ⟨⟨w, h3⟩, _⟩ := hx.2.2 a _ hb h1 h2
  exact hk w h3

/-- S3: setting the flag of a used block behind a hole; `v` is the recorded size, which may be rounded up. -/
theorem Inv.set_flag {st : St} {g : G} (h : Inv st g) {a n m w v f : Nat} (hb : g.blk a = some ⟨n, .hole⟩)
    (hc : g.blk (a + n) = some ⟨m, .used w⟩) (hv : v % 8 = 0 ∧ objSize v = objSize w) (hf : f = v ∨ f = v + 2) :
    Inv (st.store (a + n) f) (g.setK (a + n) m (.used v)) ∧ Fr st g (st.store (a + n) f) (g.setK (a + n) m (.used v)) := by
  have c := h.cont
  have hne : a ≠ a + n := by have := h.geo.al _ _ hb; simp only at this; omega
  have back : ∀ x m' k', (g.setK (a + n) m (.used v)).blk x = some ⟨m', k'⟩ → x ≠ a + n → g.blk x = some ⟨m', k'⟩ := by
    intro x m k' hx hne
    rcases setK_some.1 hx with ⟨h1, _⟩ | ⟨_, h2⟩
    · exact absurd h1 hne
    · exact h2
  have fwd : ∀ x b, g.blk x = some b → x ≠ a + n → (g.setK (a + n) m (.used v)).blk x = some b := by
    intro x b hx hne
    exact setK_some.2 (.inr ⟨hne, hx⟩)
  have atc : ∀ m' k', (g.setK (a + n) m (.used v)).blk (a + n) = some ⟨m', k'⟩ → m' = m ∧ k' = .used v := by
    intro m' k' hx
    rcases setK_some.1 hx with ⟨_, h1⟩ | ⟨h1, _⟩
    · injection h1 with h1 h2; exact ⟨h1, h2⟩
    · exact absurd rfl h1
  have hm : ∀ x, x ≠ a + n → (st.store (a + n) f).mem x = st.mem x := fun x hx => upd_ne hx
  -- other blocks do not contain a + n
  have out : ∀ x b y, g.blk x = some b → x ≠ a + n → x ≤ y → y < x + b.size → y ≠ a + n := by
    intro x b y hx hxn h1 h2 e
    subst e
    have hal := h.geo.al _ _ hc
    simp only at hal
    exact hxn (h.geo.eq_of_overlap hx hc h1 h2 (by omega) (by simp only; omega)).1
  refine ⟨⟨h.geo.setK hc, ?_, h.chunk, h.segAl⟩, ?_⟩
  · refine Cont.mk (Core.mk ?_ ?_ ?_ ?_ ?_ ?_ ?_) ?_ ?_
    · intro s hs
      have := h.geo.marker_out hs hc
      have hal := h.geo.al _ _ hc
      simp only at this hal
      rw [hm _ (by omega), hm _ (by omega)]
      exact c.marker s hs
    · intro x m' w' hx
      by_cases hxn : x = a + n
      · subst hxn
        obtain ⟨rfl, e⟩ := atc _ _ hx
        injection e with e; subst e
        refine ⟨hv.1, ?_, ?_⟩
        · rw [hv.2]; exact (c.used _ _ _ hc).2.1
        · show upd _ _ _ _ = _ ∨ upd _ _ _ _ = _
          rw [upd_self]; exact hf
      · rw [hm x hxn]; exact c.used x m' w' (back _ _ _ hx hxn)
    · intro x m1 m2 w' h1 h2
      have hxn : x ≠ a + n := by
        rintro rfl
        have := (atc _ _ h1).2
        simp at this
      by_cases hyn : x + m1 = a + n
      · have h3 := back _ _ _ h1 hxn
        have := (h.geo.pred_unique h3 hb hyn).2
        injection this with _ this; simp at this
      · rw [hm _ hyn]; exact c.flag_up x m1 m2 w' (back _ _ _ h1 hxn) (back _ _ _ h2 hyn)
    · intro x m' w' h1 h2
      by_cases hxn : x = a + n
      · subst hxn; exact ⟨a, n, .inr (fwd _ _ hb hne), rfl⟩
      · rw [hm x hxn] at h2
        obtain ⟨p, q, h3, h4⟩ := c.flag_dn x m' w' (back _ _ _ h1 hxn) h2
        refine ⟨p, q, ?_, h4⟩
        have hp : p ≠ a + n := by
          rintro rfl
          rw [hc] at h3; simp at h3
        rcases h3 with h3 | h3
        · exact .inl (fwd _ _ h3 hp)
        · exact .inr (fwd _ _ h3 hp)
    · intro x m' hx
      have hxn : x ≠ a + n := by
        rintro rfl
        have := (atc _ _ hx).2
        simp at this
      have hx' := back _ _ _ hx hxn
      have hal := h.geo.al _ _ hx'
      simp only at hal
      rw [hm x hxn, hm _ (out x _ _ hx' hxn (by omega) (by simp only; omega))]
      exact c.free x m' hx'
    · intro x m' hx
      have hxn : x ≠ a + n := by
        rintro rfl
        have := (atc _ _ hx).2
        simp at this
      have hx' := back _ _ _ hx hxn
      have hal := h.geo.al _ _ hx'
      simp only at hal
      rw [hm x hxn, hm _ (out x _ _ hx' hxn (by omega) (by simp only; omega))]
      exact c.dv x m' hx'
    · intro x b d h1 h2 h3 h4
      have hxn : x ≠ a + n := by
        rintro rfl
        have := (atc b.size b.kind h1).2
        rw [this] at h3; simp at h3
      by_cases hyn : x + b.size = a + n
      · rw [hyn] at h2
        have := (atc d.size d.kind h2).2
        rw [this] at h4; simp at h4
      · exact c.adj x b d (back x b.size b.kind h1 hxn) (back _ d.size d.kind h2 hyn) h3 h4
    · intro i hi
      obtain ⟨l1, l2, l3⟩ := c.list i hi
      refine ⟨l1, ?_, l3⟩
      apply DL.congr l2
      intro x hx
      obtain ⟨m', hx', _⟩ := (c.mem_ch i hi x).1 hx
      have hxn : x ≠ a + n := by
        rintro rfl
        rw [hc] at hx'; simp at hx'
      have hal := h.geo.al _ _ hx'
      simp only at hal
      exact ⟨hm _ (out x _ _ hx' hxn (by omega) (by simp only; omega)), hm _ (out x _ _ hx' hxn (by omega) (by simp only; omega))⟩
    · intro i hi x
      show x ∈ g.ch i ↔ _
      rw [c.mem_ch i hi x]
      constructor
      · rintro ⟨m', h1, h2⟩
        refine ⟨m', fwd _ _ h1 ?_, h2⟩
        rintro rfl
        rw [hc] at h1; simp at h1
      · rintro ⟨m', h1, h2⟩
        refine ⟨m', back _ _ _ h1 ?_, h2⟩
        rintro rfl
        have := (atc _ _ h1).2
        simp at this
  · intro x hx
    have hal := h.geo.al _ _ hc
    simp only at hal
    have hxn : x ≠ a + n := by
      rintro rfl
      exact (hx.2.2 _ _ hc (by omega) (by simp only; omega)).2 rfl
    refine ⟨hm x hxn, hx.1, hx.2.1, ?_⟩
    intro y b hy h1 h2
    by_cases hyn : y = a + n
    · subst hyn
      have := atc b.size b.kind hy
      exact ⟨⟨v, this.2⟩, hxn⟩
    · exact hx.2.2 y b (back y b.size b.kind hy hyn) h1 h2

/-- S4: a hole becomes a live object. -/
theorem Inv.to_used {st : St} {g : G} (h : Inv st g) {a n w : Nat} (hb : g.blk a = some ⟨n, .hole⟩)
    (hw : w % 8 = 0) (hn : n = objSize w) (hm : st.mem a = w)
    (hp : ∀ p q, g.blk p = some ⟨q, .free⟩ → p + q ≠ a)
    (hnx : ∀ m w', g.blk (a + n) = some ⟨m, .used w'⟩ → st.mem (a + n) = w') :
    Inv st (g.setK a n (.used w)) ∧ Fr st g st (g.setK a n (.used w)) := by
  have c := h.cont
  have back : ∀ x m k', (g.setK a n (.used w)).blk x = some ⟨m, k'⟩ → x ≠ a → g.blk x = some ⟨m, k'⟩ := by
    intro x m k' hx hne
    rcases setK_some.1 hx with ⟨h1, _⟩ | ⟨_, h2⟩
    · exact absurd h1 hne
    · exact h2
  have back2 : ∀ x m k', (g.setK a n (.used w)).blk x = some ⟨m, k'⟩ → (∀ w, k' ≠ .used w) → g.blk x = some ⟨m, k'⟩ := by
    intro x m k' hx hne
    rcases setK_some.1 hx with ⟨h1, h2⟩ | ⟨_, h2⟩
    · injection h2 with _ h2; exact absurd h2 (hne w)
    · exact h2
  refine ⟨⟨h.geo.setK hb, ?_, h.chunk, h.segAl⟩, ?_⟩
  · refine Cont.mk (Core.mk c.marker ?_ ?_ ?_ ?_ ?_ ?_) c.list ?_
    · intro x m w' hx
      by_cases hxa : x = a
      · subst hxa
        rcases setK_some.1 hx with ⟨_, h2⟩ | ⟨h2, _⟩
        · injection h2 with h2 h3; injection h3 with h3; subst h2; subst h3
          exact ⟨hw, hn, .inl hm⟩
        · exact absurd rfl h2
      · exact c.used x m w' (back _ _ _ hx hxa)
    · intro x m m' w' h1 h2
      have h1' := back2 _ _ _ h1 (by simp)
      by_cases hxa : x + m = a
      · exact absurd hxa (hp x m h1')
      · exact c.flag_up x m m' w' h1' (back _ _ _ h2 hxa)
    · intro x m w' h1 h2
      by_cases hxa : x = a
      · subst hxa
        rcases setK_some.1 h1 with ⟨_, h3⟩ | ⟨h3, _⟩
        · injection h3 with _ h3; injection h3 with h3; subst h3; omega
        · exact absurd rfl h3
      · obtain ⟨p, q, h3, h4⟩ := c.flag_dn x m w' (back _ _ _ h1 hxa) h2
        have hpa : p ≠ a := by
          rintro rfl
          rw [hb] at h3
          simp at h3
          subst h3; subst h4
          have := hnx m w' (back _ _ _ h1 hxa)
          omega
        refine ⟨p, q, ?_, h4⟩
        rcases h3 with h3 | h3
        · exact .inl (setK_some.2 (.inr ⟨hpa, h3⟩))
        · exact .inr (setK_some.2 (.inr ⟨hpa, h3⟩))
    · intro x m hx; exact c.free x m (back2 _ _ _ hx (by simp))
    · intro x m hx; exact c.dv x m (back2 _ _ _ hx (by simp))
    · intro x b d h1 h2 h3 h4
      exact c.adj x b d (back2 x b.size b.kind h1 (by intro w h5; rw [h5] at h3; simp at h3))
        (back2 _ d.size d.kind h2 (by intro w h5; rw [h5] at h4; simp at h4)) h3 h4
    · intro i hi x
      show x ∈ g.ch i ↔ _
      rw [c.mem_ch i hi x]
      constructor
      · rintro ⟨m, h1, h2⟩
        refine ⟨m, setK_some.2 (.inr ⟨?_, h1⟩), h2⟩
        rintro rfl
        rw [hb] at h1; simp at h1
      · rintro ⟨m, h1, h2⟩
        exact ⟨m, back2 _ _ _ h1 (by simp), h2⟩
  · intro x hx
    refine ⟨rfl, hx.1, hx.2.1, ?_⟩
    intro y b hy h1 h2
    rcases setK_some.1 hy with ⟨rfl, rfl⟩ | ⟨_, h3⟩
    · obtain ⟨⟨w', h3⟩, _⟩ := hx.2.2 _ _ hb h1 h2
      simp at h3
    · exact hx.2.2 y b h3 h1 h2

/-- S5: a hole becomes the victim. -/
theorem Inv.to_dv {st : St} {g : G} (h : Inv st g) {a n : Nat} (hb : g.blk a = some ⟨n, .hole⟩)
    (hm : st.mem a = n + 3) (hm2 : st.mem (a + 8) = 1)
    (hp : ∀ p q, g.blk p = some ⟨q, .free⟩ ∨ g.blk p = some ⟨q, .dv⟩ → p + q ≠ a)
    (hs : ∀ m, g.blk (a + n) ≠ some ⟨m, .free⟩ ∧ g.blk (a + n) ≠ some ⟨m, .dv⟩)
    (hnx : ∀ m w', g.blk (a + n) = some ⟨m, .used w'⟩ → st.mem (a + n) = w') :
    Inv st (g.setK a n .dv) ∧ Fr st g st (g.setK a n .dv) := by
  have c := h.cont
  have hal := h.geo.al _ _ hb
  simp only at hal
  have back : ∀ x m k', (g.setK a n .dv).blk x = some ⟨m, k'⟩ → x ≠ a → g.blk x = some ⟨m, k'⟩ := by
    intro x m k' hx hne
    rcases setK_some.1 hx with ⟨h1, _⟩ | ⟨_, h2⟩
    · exact absurd h1 hne
    · exact h2
  have back2 : ∀ x m k', (g.setK a n .dv).blk x = some ⟨m, k'⟩ → k' ≠ .dv → g.blk x = some ⟨m, k'⟩ := by
    intro x m k' hx hne
    rcases setK_some.1 hx with ⟨h1, h2⟩ | ⟨_, h2⟩
    · injection h2 with _ h2; exact absurd h2 hne
    · exact h2
  refine ⟨⟨h.geo.setK hb, ?_, h.chunk, h.segAl⟩, ?_⟩
  · refine Cont.mk (Core.mk c.marker ?_ ?_ ?_ ?_ ?_ ?_) c.list ?_
    · intro x m w' hx; exact c.used x m w' (back2 _ _ _ hx (by simp))
    · intro x m m' w' h1 h2
      exact c.flag_up x m m' w' (back2 _ _ _ h1 (by simp)) (back2 _ _ _ h2 (by simp))
    · intro x m w' h1 h2
      have h1' := back2 _ _ _ h1 (by simp)
      obtain ⟨p, q, h3, h4⟩ := c.flag_dn x m w' h1' h2
      have hpa : p ≠ a := by
        rintro rfl
        rw [hb] at h3
        simp at h3
        subst h3; subst h4
        have := hnx m w' h1'
        omega
      refine ⟨p, q, ?_, h4⟩
      rcases h3 with h3 | h3
      · exact .inl (setK_some.2 (.inr ⟨hpa, h3⟩))
      · exact .inr (setK_some.2 (.inr ⟨hpa, h3⟩))
    · intro x m hx; exact c.free x m (back2 _ _ _ hx (by simp))
    · intro x m hx
      by_cases hxa : x = a
      · subst hxa
        rcases setK_some.1 hx with ⟨_, h2⟩ | ⟨h2, _⟩
        · injection h2 with h2 _; subst h2; exact ⟨hm, hm2⟩
        · exact absurd rfl h2
      · exact c.dv x m (back _ _ _ hx hxa)
    · intro x b d h1 h2 h3 h4
      by_cases hxa : x = a
      · subst hxa
        rcases setK_some.1 h1 with ⟨_, h5⟩ | ⟨h5, _⟩
        · subst h5
          simp only at h2
          have h6 := back (x + n) d.size d.kind h2 (by omega)
          have := hs d.size
          rcases h4 with h4 | h4 <;> (rw [h4] at h6; simp [h6] at this)
        · exact absurd rfl h5
      · have e1 := back x b.size b.kind h1 hxa
        by_cases hya : x + b.size = a
        · refine hp x b.size ?_ hya
          rcases h3 with h3 | h3 <;> rw [h3] at e1
          · exact .inl e1
          · exact .inr e1
        · exact c.adj x b d e1 (back _ d.size d.kind h2 hya) h3 h4
    · intro i hi x
      show x ∈ g.ch i ↔ _
      rw [c.mem_ch i hi x]
      constructor
      · rintro ⟨m, h1, h2⟩
        refine ⟨m, setK_some.2 (.inr ⟨?_, h1⟩), h2⟩
        rintro rfl
        rw [hb] at h1; simp at h1
      · rintro ⟨m, h1, h2⟩
        exact ⟨m, back2 _ _ _ h1 (by simp), h2⟩
  · intro x hx
    refine ⟨rfl, hx.1, hx.2.1, ?_⟩
    intro y b hy h1 h2
    rcases setK_some.1 hy with ⟨rfl, rfl⟩ | ⟨_, h3⟩
    · obtain ⟨⟨w', h3⟩, _⟩ := hx.2.2 _ _ hb h1 h2
      simp at h3
    · exact hx.2.2 y b h3 h1 h2

/-- S8: merging two adjacent holes. -/
theorem Inv.merge {st : St} {g : G} (h : Inv st g) {a n m : Nat} (h1 : g.blk a = some ⟨n, .hole⟩)
    (h2 : g.blk (a + n) = some ⟨m, .hole⟩) : Inv st (g.merge a n m) ∧ Fr st g st (g.merge a n m) := by
  have c := h.cont
  have hal := h.geo.al _ _ h1
  simp only at hal
  have back : ∀ x b, (g.merge a n m).blk x = some b → (x = a ∧ b = ⟨n + m, .hole⟩) ∨ (x ≠ a ∧ x ≠ a + n ∧ g.blk x = some b) := by
    intro x b hb
    simp only [G.merge] at hb
    by_cases hx : x = a
    · subst hx; rw [setB_self] at hb; injection hb with hb; exact .inl ⟨rfl, hb.symm⟩
    · rw [setB_ne hx] at hb
      by_cases hx2 : x = a + n
      · subst hx2; rw [setB_self] at hb; cases hb
      · rw [setB_ne hx2] at hb; exact .inr ⟨hx, hx2, hb⟩
  have back2 : ∀ x q k, (g.merge a n m).blk x = some ⟨q, k⟩ → k ≠ .hole → g.blk x = some ⟨q, k⟩ := by
    intro x q k hx hk
    rcases back x _ hx with ⟨_, h3⟩ | ⟨_, _, h3⟩
    · injection h3 with _ h3; exact absurd h3 hk
    · exact h3
  have fwd : ∀ x q k, g.blk x = some ⟨q, k⟩ → k ≠ .hole → (g.merge a n m).blk x = some ⟨q, k⟩ := by
    intro x q k hx hk
    have n1 : x ≠ a := by rintro rfl; rw [h1] at hx; injection hx with hx; injection hx with _ hx; exact hk hx.symm
    have n2 : x ≠ a + n := by rintro rfl; rw [h2] at hx; injection hx with hx; injection hx with _ hx; exact hk hx.symm
    simp [G.merge, setB_ne n1, setB_ne n2, hx]
  refine ⟨⟨h.geo.merge h1 h2, ?_, h.chunk, h.segAl⟩, ?_⟩
  · refine Cont.mk (Core.mk c.marker ?_ ?_ ?_ ?_ ?_ ?_) c.list ?_
    · intro x q w hx; exact c.used x q w (back2 _ _ _ hx (by simp))
    · intro x q q' w h3 h4; exact c.flag_up x q q' w (back2 _ _ _ h3 (by simp)) (back2 _ _ _ h4 (by simp))
    · intro x q w h3 h4
      have h3' := back2 _ _ _ h3 (by simp)
      obtain ⟨p, q', h5, h6⟩ := c.flag_dn x q w h3' h4
      rcases h5 with h5 | h5
      · exact ⟨p, q', .inl (fwd _ _ _ h5 (by simp)), h6⟩
      · by_cases hp : p = a
        · subst hp
          rw [h1] at h5; injection h5 with h5; injection h5 with h5; subst h5; subst h6
          rw [h2] at h3'; simp at h3'
        · by_cases hp2 : p = a + n
          · subst hp2
            rw [h2] at h5; injection h5 with h5; injection h5 with h5; subst h5
            exact ⟨a, n + m, .inr (by simp [G.merge, setB_self]), by omega⟩
          · exact ⟨p, q', .inr (by simp [G.merge, setB_ne hp, setB_ne hp2, h5]), h6⟩
    · intro x q hx; exact c.free x q (back2 _ _ _ hx (by simp))
    · intro x q hx; exact c.dv x q (back2 _ _ _ hx (by simp))
    · intro x b d h3 h4 h5 h6
      exact c.adj x b d (back2 x b.size b.kind h3 (by intro h7; rw [h7] at h5; simp at h5))
        (back2 _ d.size d.kind h4 (by intro h7; rw [h7] at h6; simp at h6)) h5 h6
    · intro i hi x
      show x ∈ g.ch i ↔ _
      rw [c.mem_ch i hi x]
      constructor
      · rintro ⟨q, h3, h4⟩; exact ⟨q, fwd _ _ _ h3 (by simp), h4⟩
      · rintro ⟨q, h3, h4⟩; exact ⟨q, back2 _ _ _ h3 (by simp), h4⟩
  · intro x hx
    refine ⟨rfl, hx.1, hx.2.1, ?_⟩
    intro y b hy i1 i2
    rcases back y b hy with ⟨rfl, rfl⟩ | ⟨_, _, h3⟩
    · simp only at i2
      rcases Nat.lt_or_ge x (y + n) with h3 | h3
      · obtain ⟨⟨w, h4⟩, _⟩ := hx.2.2 _ _ h1 i1 h3; simp at h4
      · obtain ⟨⟨w, h4⟩, _⟩ := hx.2.2 _ _ h2 h3 (by simp only; omega); simp at h4
    · exact hx.2.2 y b h3 i1 i2

/-- S8: splitting a hole. -/
theorem Inv.split {st : St} {g : G} (h : Inv st g) {a n m : Nat} (h1 : g.blk a = some ⟨n + m, .hole⟩)
    (hn : n % 8 = 0) (hm : m % 8 = 0) (hn2 : 32 ≤ n) (hm2 : 32 ≤ m) :
    Inv st (g.split a n m) ∧ Fr st g st (g.split a n m) := by
  have c := h.cont
  have back2 : ∀ x q k, (g.split a n m).blk x = some ⟨q, k⟩ → k ≠ .hole → g.blk x = some ⟨q, k⟩ := by
    intro x q k hx hk
    rcases Geo.split_fwd hx with ⟨_, h3⟩ | ⟨_, h3⟩ | ⟨_, _, h3⟩
    · injection h3 with _ h3; exact absurd h3 hk
    · injection h3 with _ h3; exact absurd h3 hk
    · exact h3
  have nob : ∀ b, g.blk (a + n) ≠ some b := by
    intro b hb
    have := h.geo.disj _ _ _ _ h1 hb (by omega)
    simp only at this; omega
  have fwd : ∀ x q k, g.blk x = some ⟨q, k⟩ → x ≠ a → (g.split a n m).blk x = some ⟨q, k⟩ := by
    intro x q k hx n1
    have n2 : x ≠ a + n := by rintro rfl; exact nob _ hx
    simp [G.split, setB_ne n1, setB_ne n2, hx]
  refine ⟨⟨h.geo.split h1 hn hm hn2 hm2, ?_, h.chunk, h.segAl⟩, ?_⟩
  · refine Cont.mk (Core.mk c.marker ?_ ?_ ?_ ?_ ?_ ?_) c.list ?_
    · intro x q w hx; exact c.used x q w (back2 _ _ _ hx (by simp))
    · intro x q q' w h3 h4; exact c.flag_up x q q' w (back2 _ _ _ h3 (by simp)) (back2 _ _ _ h4 (by simp))
    · intro x q w h3 h4
      have h3' := back2 _ _ _ h3 (by simp)
      obtain ⟨p, q', h5, h6⟩ := c.flag_dn x q w h3' h4
      by_cases hp : p = a
      · subst hp
        rw [h1] at h5; simp at h5; subst h5
        refine ⟨p + n, m, .inr ?_, by omega⟩
        simp only [G.split]; rw [setB_ne (by omega), setB_self]
      · rcases h5 with h5 | h5
        · exact ⟨p, q', .inl (fwd _ _ _ h5 hp), h6⟩
        · exact ⟨p, q', .inr (fwd _ _ _ h5 hp), h6⟩
    · intro x q hx; exact c.free x q (back2 _ _ _ hx (by simp))
    · intro x q hx; exact c.dv x q (back2 _ _ _ hx (by simp))
    · intro x b d h3 h4 h5 h6
      exact c.adj x b d (back2 x b.size b.kind h3 (by intro h7; rw [h7] at h5; simp at h5))
        (back2 _ d.size d.kind h4 (by intro h7; rw [h7] at h6; simp at h6)) h5 h6
    · intro i hi x
      show x ∈ g.ch i ↔ _
      rw [c.mem_ch i hi x]
      constructor
      · rintro ⟨q, h3, h4⟩
        refine ⟨q, fwd _ _ _ h3 ?_, h4⟩
        rintro rfl
        rw [h1] at h3; simp at h3
      · rintro ⟨q, h3, h4⟩; exact ⟨q, back2 _ _ _ h3 (by simp), h4⟩
  · intro x hx
    refine ⟨rfl, hx.1, hx.2.1, ?_⟩
    intro y b hy i1 i2
    rcases Geo.split_fwd hy with ⟨rfl, rfl⟩ | ⟨rfl, rfl⟩ | ⟨_, _, h3⟩
    · simp only at i2
      obtain ⟨⟨w, h4⟩, _⟩ := hx.2.2 _ _ h1 i1 (by simp only; omega); simp at h4
    · simp only at i2
      obtain ⟨⟨w, h4⟩, _⟩ := hx.2.2 _ _ h1 (by omega) (by simp only; omega); simp at h4
    · exact hx.2.2 y b h3 i1 i2

end WG.Varlen
