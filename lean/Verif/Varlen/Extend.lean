import Verif.Varlen.AllocOp
/-! Extension of an area by a new subarea, and new areas. -/
namespace WG.Varlen

theorem allocChunk_some {f z n c f' : Nat} (hf : f % 8 = 0) (h : allocChunk f z n = some (c, f')) :
    c = f ∧ f + n ≤ f' ∧ f' % 8 = 0 ∧ f' < z ∧ f' < f + n + 8 := by
  unfold allocChunk at h
  simp only at h
  split_ifs at h with h1 h2 h3 h3
  all_goals (injection h with h; injection h with h4 h5; subst h4; omega)

theorem initSubarea_some {st st' : St} {n : Nat} (hf : st.segFree % 8 = 0) (h : initSubarea st n = some st') :
    8192 ≤ n ∧ ∃ f, st' = { st with segFree := f, subs := st.subs ++ [⟨n, st.segFree, n - n % 32, st.segFree⟩] } ∧
      st.segFree + n ≤ f ∧ f % 8 = 0 ∧ f < st.segSize := by
  unfold initSubarea at h
  split_ifs at h with h1
  unfold MINSUB at h1
  split at h
  · cases h
  · rename_i c f hc
    obtain ⟨rfl, c2, c3, c4, _⟩ := allocChunk_some hf hc
    injection h with h
    refine ⟨by omega, f, ?_, c2, c3, c4⟩
    subst h
    have e : (8 : Nat) - st.segFree % 8 = 8 := by omega
    simp [e, MINSZ]

/-- The second word of the end markers (which tells them from the victim). -/
def Mk (st : St) : Prop := ∀ s ∈ st.subs, st.mem (s.hi + 8) = 0

theorem Inv.prot_marker {st : St} {g : G} (h : Inv st g) {s : Sub} (hs : s ∈ st.subs) : Prot st g (s.hi + 8) := by
  have h1 := h.geo.subs_al s hs
  have h2 := h.chunk s hs
  refine ⟨by unfold Sub.hi; omega, ?_, ?_⟩
  · intro t ht
    have h3 := h.geo.subs_al t ht
    unfold Sub.hi
    rcases h.geo.sub_cases hs ht with rfl | e | e <;> omega
  · intro a b hb h3 h4
    exfalso
    obtain ⟨t, ht, h5, h6⟩ := h.geo.inn a b hb
    have h7 := h.geo.subs_al t ht
    unfold Sub.lo Sub.hi at *
    rcases h.geo.sub_cases hs ht with rfl | e | e <;> omega

theorem Mk.fr {st st' : St} {g g' : G} (h : Inv st g) (hm : Mk st) (hf : Fr st g st' g') (hs : st'.subs = st.subs) : Mk st' := by
  intro s hs'
  rw [hs] at hs'
  rw [(hf _ (h.prot_marker hs')).1]
  exact hm s hs'

/-- Marking and filling the new subarea. -/
theorem markSub_res {st : St} {g : G} (h : Inv st g) (nodv : ∀ x m, g.blk x ≠ some ⟨m, .dv⟩) (nh : NoHole g)
    {n f : Nat} (hn : 8192 ≤ n) (hf : st.segFree + n ≤ f) (hf8 : f % 8 = 0) (hfz : f < st.segSize) :
    ∃ g', Good (markSub { st with segFree := f, subs := st.subs ++ [⟨n, st.segFree, n - n % 32, st.segFree⟩] }
        ⟨n, st.segFree, n - n % 32, st.segFree⟩) g' ∧
      Fr st g (markSub { st with segFree := f, subs := st.subs ++ [⟨n, st.segFree, n - n % 32, st.segFree⟩] }
        ⟨n, st.segFree, n - n % 32, st.segFree⟩) g' ∧ usedAt g' = usedAt g ∧
      (Mk st → Mk (markSub { st with segFree := f, subs := st.subs ++ [⟨n, st.segFree, n - n % 32, st.segFree⟩] }
        ⟨n, st.segFree, n - n % 32, st.segFree⟩)) := by
  have hseg := h.segAl
  have hlt : ∀ s ∈ st.subs, s.aoff + s.asize ≤ st.segFree := by
    intro s hs; have := h.chunk s hs; omega
  have hblt : ∀ a b, g.blk a = some b → a + b.size + 32 ≤ st.segFree := by
    intro a b hb
    obtain ⟨s, hs, h1, h2⟩ := h.geo.inn a b hb
    have := hlt s hs
    have := h.geo.subs_al s hs
    unfold Sub.hi at h2; omega
  generalize hst' : markSub { st with segFree := f, subs := st.subs ++ [⟨n, st.segFree, n - n % 32, st.segFree⟩] }
        ⟨n, st.segFree, n - n % 32, st.segFree⟩ = st'
  have e0 : st'.subs = st.subs ++ [⟨n, st.segFree, n - n % 32, st.segFree⟩] := by rw [← hst']; rfl
  have e1 : st'.segFree = f := by rw [← hst']; rfl
  have e2 : st'.segSize = st.segSize := by rw [← hst']; rfl
  have e3 : ∀ j, j < 288 → st'.fb j = st.fb j := by
    intro j hj; rw [← hst']
    show upd (upd st.fb DV (st.segFree + MINSZ)) DVSIZE (n - n % 32 - 2 * MINSZ) j = _
    rw [upd_ne (by unfold DVSIZE; omega), upd_ne (by unfold DV; omega)]
  have e4 : st'.fb DV = st.segFree + 32 := by
    rw [← hst']; show upd (upd st.fb DV (st.segFree + MINSZ)) DVSIZE (n - n % 32 - 2 * MINSZ) DV = _
    rw [upd_ne (by decide), upd_self]; rfl
  have e5 : st'.fb DVSIZE = n - n % 32 - 64 := by
    rw [← hst']; show upd (upd st.fb DV (st.segFree + MINSZ)) DVSIZE (n - n % 32 - 2 * MINSZ) DVSIZE = _
    rw [upd_self]; rfl
  have asz : 128 ≤ n - n % 32 ∧ (n - n % 32) % 32 = 0 ∧ n - n % 32 ≤ n := by omega
  have hmem : ∀ y, st'.mem y = upd (upd (upd (upd (upd (upd (upd (upd (upd (upd st.mem st.segFree (mkSpecial MINSZ)) (st.segFree + 8) 0)
      (st.segFree + 16) 0) (st.segFree + MINSZ - 8) MINSZ) (st.segFree + (n - n % 32) - MINSZ) (mkSpecial MINSZ))
      (st.segFree + (n - n % 32) - MINSZ + 8) 0) (st.segFree + (n - n % 32) - MINSZ + 16) 0)
      (st.segFree + (n - n % 32) - MINSZ + MINSZ - 8) MINSZ) (st.segFree + MINSZ) (mkSpecial (n - n % 32 - 2 * MINSZ)))
      (st.segFree + MINSZ + 8) 1 y := by
    intro y; rw [← hst']; rfl
  clear hst'
  generalize n - n % 32 = z at *
  unfold MINSZ at hmem
  have m1 : st'.mem st.segFree = 35 := by
    rw [hmem, upd_ne (by omega), upd_ne (by omega), upd_ne (by omega), upd_ne (by omega), upd_ne (by omega), upd_ne (by omega),
      upd_ne (by omega), upd_ne (by omega), upd_ne (by omega), upd_self]; rfl
  have m2 : st'.mem (st.segFree + z - 32) = 35 := by
    rw [hmem, upd_ne (by omega), upd_ne (by omega), upd_ne (by omega), upd_ne (by omega), upd_ne (by omega), upd_self]; rfl
  have m3 : st'.mem (st.segFree + 32) = z - 64 + 3 := by
    rw [hmem, upd_ne (by omega), upd_self]
    unfold mkSpecial clr
    omega
  have m4 : st'.mem (st.segFree + 32 + 8) = 1 := by
    rw [hmem, upd_self]
  have m6 : st'.mem (st.segFree + z - 32 + 8) = 0 := by
    rw [hmem, upd_ne (by omega), upd_ne (by omega), upd_ne (by omega), upd_ne (by omega), upd_self]
  have m5 : ∀ y, y < st.segFree ∨ st.segSize ≤ y → st'.mem y = st.mem y := by
    intro y hy
    rw [hmem, upd_ne (by omega), upd_ne (by omega), upd_ne (by omega), upd_ne (by omega), upd_ne (by omega), upd_ne (by omega),
      upd_ne (by omega), upd_ne (by omega), upd_ne (by omega), upd_ne (by omega)]
  clear hmem
  -- the old blocks in the new memory
  have hold : Inv { st with mem := st'.mem } g := by
    apply h.congr_mem
    intro x hx
    apply m5
    rcases hx with ⟨s, hs, hx⟩ | ⟨a, b, hb, hx⟩
    · have := hlt s hs
      have := h.geo.subs_al s hs
      unfold Sub.hi at hx; omega
    · have := hblt a b hb
      have := h.geo.al a b hb
      rcases hx with ⟨_, hx⟩ | ⟨_, hx⟩ <;> omega
  have c := hold.cont
  have hnone : ∀ x, st.segFree ≤ x → g.blk x = none := by
    intro x hx
    cases hb : g.blk x with
    | none => rfl
    | some b => have := hblt x b hb; omega
  have hg' : ∀ x b, (g.setK (st.segFree + 32) (z - 64) .dv).blk x = some b ↔
      (x = st.segFree + 32 ∧ b = ⟨z - 64, .dv⟩) ∨ (x ≠ st.segFree + 32 ∧ g.blk x = some b) := fun x b => setK_some
  have hch : (g.setK (st.segFree + 32) (z - 64) .dv).ch = g.ch := rfl
  have hu : usedAt (g.setK (st.segFree + 32) (z - 64) .dv) = usedAt g := by
    apply usedAt_setK (by simp)
    unfold usedAt; rw [hnone _ (by omega)]
  refine ⟨g.setK (st.segFree + 32) (z - 64) .dv, ⟨⟨?_, Cont.mk (Core.mk ?_ ?_ ?_ ?_ ?_ ?_ ?_) ?_ ?_, ?_, ?_⟩, ?_, ?_⟩, ?_, hu, ?_⟩
  all_goals generalize g.setK (st.segFree + 32) (z - 64) .dv = g1 at *
  · rw [e0]
    constructor
    · intro s hs
      simp only [List.mem_append, List.mem_singleton] at hs
      rcases hs with hs | rfl
      · exact h.geo.subs_al s hs
      · simp only; omega
    · rw [List.pairwise_append]
      refine ⟨h.geo.subs_pw, by simp, ?_⟩
      intro s hs t ht
      simp only [List.mem_singleton] at ht
      subst ht
      exact hlt s hs
    · intro a b hb
      rcases (hg' _ _).1 hb with ⟨rfl, rfl⟩ | ⟨_, e⟩
      · simp only; omega
      · exact h.geo.al a b e
    · intro a b hb
      rcases (hg' _ _).1 hb with ⟨rfl, rfl⟩ | ⟨_, e⟩
      · refine ⟨⟨n, st.segFree, z, st.segFree⟩, by simp, ?_⟩
        unfold Sub.lo Sub.hi
        simp only; omega
      · obtain ⟨s, hs, h1⟩ := h.geo.inn a b e
        exact ⟨s, by simp [hs], h1⟩
    · intro a b hb
      rcases (hg' _ _).1 hb with ⟨rfl, rfl⟩ | ⟨_, e⟩
      · refine .inl ⟨⟨n, st.segFree, z, st.segFree⟩, by simp, ?_⟩
        unfold Sub.hi
        simp only; omega
      · rcases h.geo.next a b e with ⟨s, hs, h1⟩ | ⟨d, hd⟩
        · exact .inl ⟨s, by simp [hs], h1⟩
        · refine .inr ⟨d, (hg' _ _).2 (.inr ⟨?_, hd⟩)⟩
          have := hblt _ _ hd; omega
    · intro s hs
      simp only [List.mem_append, List.mem_singleton] at hs
      rcases hs with hs | rfl
      · obtain ⟨d, hd⟩ := h.geo.first s hs
        refine ⟨d, (hg' _ _).2 (.inr ⟨?_, hd⟩)⟩
        have := hblt _ _ hd; omega
      · exact ⟨_, (hg' _ _).2 (.inl ⟨rfl, rfl⟩)⟩
    · intro a b d e hb hd hlt'
      rcases (hg' _ _).1 hb with ⟨rfl, rfl⟩ | ⟨_, e1⟩
      · rcases (hg' _ _).1 hd with ⟨rfl, _⟩ | ⟨_, e2⟩
        · omega
        · have := hblt _ _ e2; omega
      · rcases (hg' _ _).1 hd with ⟨rfl, _⟩ | ⟨_, e2⟩
        · have := hblt _ _ e1; omega
        · exact h.geo.disj a b d e e1 e2 hlt'
  · rw [e0]
    intro s hs
    simp only [List.mem_append, List.mem_singleton] at hs
    rcases hs with hs | rfl
    · exact c.marker s hs
    · exact ⟨m1, m2⟩
  · intro a m w hb
    rcases (hg' _ _).1 hb with ⟨_, e⟩ | ⟨_, e⟩
    · simp at e
    · exact c.used a m w e
  · intro a m q w hb hd
    rcases (hg' _ _).1 hb with ⟨_, e⟩ | ⟨_, e⟩
    · simp at e
    · rcases (hg' _ _).1 hd with ⟨_, e'⟩ | ⟨_, e'⟩
      · simp at e'
      · exact c.flag_up a m q w e e'
  · intro a m w hb hm
    rcases (hg' _ _).1 hb with ⟨_, e⟩ | ⟨_, e⟩
    · simp at e
    · obtain ⟨x, q, h1, h2⟩ := c.flag_dn a m w e hm
      refine ⟨x, q, ?_, h2⟩
      rcases h1 with h1 | h1
      · exact .inl ((hg' _ _).2 (.inr ⟨by have := hblt _ _ h1; omega, h1⟩))
      · exact .inr ((hg' _ _).2 (.inr ⟨by have := hblt _ _ h1; omega, h1⟩))
  · intro a m hb
    rcases (hg' _ _).1 hb with ⟨_, e⟩ | ⟨_, e⟩
    · simp at e
    · exact c.free a m e
  · intro a m hb
    rcases (hg' _ _).1 hb with ⟨rfl, e⟩ | ⟨_, e⟩
    · injection e with e; subst e; exact ⟨m3, m4⟩
    · exact c.dv a m e
  · intro a b d hb hd h1 h2
    rcases (hg' _ _).1 hb with ⟨rfl, rfl⟩ | ⟨_, e⟩
    · rcases (hg' _ _).1 hd with ⟨e, _⟩ | ⟨_, e⟩
      · simp only at e; omega
      · have := hblt _ _ e; omega
    · rcases (hg' _ _).1 hd with ⟨e', _⟩ | ⟨_, e'⟩
      · have := hblt _ _ e; omega
      · exact c.adj a b d e e' h1 h2
  · intro j hj
    rw [hch, e3 j hj]; exact c.list j hj
  · intro j hj x
    rw [hch, c.mem_ch j hj x]
    constructor
    · rintro ⟨q, h1, h2⟩
      exact ⟨q, (hg' _ _).2 (.inr ⟨by have := hblt _ _ h1; omega, h1⟩), h2⟩
    · rintro ⟨q, h1, h2⟩
      rcases (hg' _ _).1 h1 with ⟨_, e⟩ | ⟨_, e⟩
      · simp at e
      · exact ⟨q, e, h2⟩
  · rw [e0, e1]
    intro s hs
    simp only [List.mem_append, List.mem_singleton] at hs
    rcases hs with hs | rfl
    · have := h.chunk s hs; omega
    · simp only; omega
  · rw [e1, e2]; omega
  · refine .inr ⟨?_, ?_⟩
    · rw [e4, e5]; exact (hg' _ _).2 (.inl ⟨rfl, rfl⟩)
    · intro a m hb
      rcases (hg' _ _).1 hb with ⟨rfl, _⟩ | ⟨_, e⟩
      · exact e4.symm
      · exact absurd e (nodv _ _)
  · intro a m hb
    rcases (hg' _ _).1 hb with ⟨_, e⟩ | ⟨_, e⟩
    · simp at e
    · exact nh _ _ e
  · intro x hx
    refine ⟨m5 x hx.1, ?_, ?_, ?_⟩
    · rw [e1]; have := hx.1; omega
    · rw [e0]
      intro s hs
      simp only [List.mem_append, List.mem_singleton] at hs
      rcases hs with hs | rfl
      · exact hx.2.1 s hs
      · have := hx.1; unfold Sub.hi; simp only; omega
    · intro a b hb h1 h2
      rcases (hg' _ _).1 hb with ⟨rfl, rfl⟩ | ⟨_, e⟩
      · have := hx.1; simp only at h2; omega
      · exact hx.2.2 a b e h1 h2
  · intro hmk
    intro s hs
    rw [e0] at hs
    simp only [List.mem_append, List.mem_singleton] at hs
    rcases hs with hs | rfl
    · have := h.prot_marker hs
      rw [m5 _ this.1]; exact hmk s hs
    · exact m6

/-- Live objects after an extension: the same, except that a recorded size below 32 bytes may be rounded up. -/
def URel (g g' : G) : Prop :=
  ∀ x, usedAt g' x = usedAt g x ∨ ∃ w, usedAt g x = some w ∧ usedAt g' x = some (objSize w)

theorem URel.refl (g : G) : URel g g := fun _ => .inl rfl

theorem objSize_idem (w : Nat) : objSize (objSize w) = objSize w := by unfold objSize; omega

theorem URel.trans {g1 g2 g3 : G} (h1 : URel g1 g2) (h2 : URel g2 g3) : URel g1 g3 := by
  intro x
  rcases h1 x with e1 | ⟨w, e1, e2⟩ <;> rcases h2 x with e3 | ⟨w', e3, e4⟩
  · exact .inl (e3.trans e1)
  · exact .inr ⟨w', by rw [← e1]; exact e3, e4⟩
  · exact .inr ⟨w, e1, by rw [e3]; exact e2⟩
  · rw [e2] at e3; injection e3 with e3; subst e3
    exact .inr ⟨w, e1, by rw [e4, objSize_idem]⟩

/-- The old victim goes to its free list. -/
theorem retireDv_res {st : St} {g : G} (G0 : Good st g) :
    ∃ g', Inv (retireDv st) g' ∧ (∀ x m, g'.blk x ≠ some ⟨m, .dv⟩) ∧ NoHole g' ∧ Fr st g (retireDv st) g' ∧ URel g g' ∧
      SameSeg st (retireDv st) := by
  unfold retireDv
  simp only
  rcases G0.dv with ⟨d1, d2, d3⟩ | ⟨d1, d2⟩
  · rw [if_neg (by omega)]
    exact ⟨g, G0.inv, d3, G0.nohole, Fr.refl _ _, URel.refl _, SameSeg.refl _⟩
  · have al := G0.inv.geo.al _ _ d1
    have hpos := G0.inv.geo.pos d1
    simp only at al
    rw [if_pos ⟨by omega, al.2.2⟩]
    have i1 := G0.inv.to_hole d1 (by simp)
    have f1 : Fr st g st _ := Fr.to_hole d1 (by simp)
    have u1 : usedAt (g.setK (st.fb DV) (st.fb DVSIZE) .hole) = usedAt g := usedAt_setK (by simp) (usedAt_of d1 (by simp))
    have hg1 : ∀ x b, (g.setK (st.fb DV) (st.fb DVSIZE) .hole).blk x = some b ↔
      (x = st.fb DV ∧ b = ⟨st.fb DVSIZE, .hole⟩) ∨ (x ≠ st.fb DV ∧ g.blk x = some b) := fun x b => setK_some
    have prf : ∀ p q, g.blk p = some ⟨q, .free⟩ → p + q ≠ st.fb DV := by
      intro p q h e; exact G0.inv.cont.adj p _ _ h (by rw [e]; exact d1) (.inl rfl) (.inr rfl)
    have snf : ∀ m, g.blk (st.fb DV + st.fb DVSIZE) ≠ some ⟨m, .free⟩ := fun m h =>
      G0.inv.cont.adj _ _ _ d1 h (.inr rfl) (.inl rfl)
    generalize st.fb DV = d at *
    generalize st.fb DVSIZE = ds at *
    generalize g.setK d ds .hole = g1 at *
    have b1 : g1.blk d = some ⟨ds, .hole⟩ := (hg1 _ _).2 (.inl ⟨rfl, rfl⟩)
    have back1 : ∀ x m k, k ≠ .hole → g1.blk x = some ⟨m, k⟩ → g.blk x = some ⟨m, k⟩ ∧ x ≠ d := by
      intro x m k hk h
      rcases (hg1 _ _).1 h with ⟨_, e⟩ | ⟨e1, e2⟩
      · injection e with _ e; exact absurd e hk
      · exact ⟨e2, e1⟩
    have only1 : ∀ x m, g1.blk x = some ⟨m, .hole⟩ → x = d := by
      intro x m h
      rcases (hg1 _ _).1 h with ⟨e, _⟩ | ⟨e1, e2⟩
      · exact e
      · exact absurd e2 (G0.nohole _ _)
    have nodv1 : ∀ x m, g1.blk x ≠ some ⟨m, .dv⟩ := by
      intro x m h
      have := back1 _ _ _ (by simp) h
      exact this.2 (d2 _ _ this.1)
    -- finishing from a marked state
    have fin : ∀ t g2, Inv t g2 → Fr st g1 t g2 → URel g1 g2 → SameSeg st t → g2.blk d = some ⟨ds, .hole⟩ →
        (∀ x m, g2.blk x = some ⟨m, .hole⟩ → x = d) → (∀ x m, g2.blk x ≠ some ⟨m, .dv⟩) →
        (∀ x m, g2.blk x = some ⟨m, .free⟩ → g1.blk x = some ⟨m, .free⟩) →
        (∀ m w', g2.blk (d + ds) = some ⟨m, .used w'⟩ → t.mem (d + ds) = w' + 2) →
        ∃ g', Inv (pushFree t d ds) g' ∧ (∀ x m, g'.blk x ≠ some ⟨m, .dv⟩) ∧ NoHole g' ∧ Fr st g (pushFree t d ds) g' ∧ URel g g' ∧
          SameSeg st (pushFree t d ds) := by
      intro t g2 it ft ut stt bt ot dt frt nxt
      obtain ⟨i3, f3⟩ := it.push bt (by rintro p q (h | h)
                                        · exact prf p q (back1 _ _ _ (by simp) (frt _ _ h)).1
                                        · exact absurd h (dt _ _))
        (fun m => ⟨fun h => snf m (back1 _ _ _ (by simp) (frt _ _ h)).1, dt _ _⟩) nxt
      refine ⟨_, i3, ?_, ?_, (f1.trans ft).trans f3, ?_, stt.trans (pushFree_seg _ _ _)⟩
      · intro x m h
        rcases setK_some.1 h with ⟨_, e⟩ | ⟨_, e⟩
        · simp at e
        · exact dt _ _ e
      · intro x m h
        rcases setK_some.1 h with ⟨_, e⟩ | ⟨e1, e⟩
        · simp at e
        · exact e1 (ot _ _ e)
      · have e1 : usedAt ((g2.setK d ds .free).setCh (bix ds) (d :: g2.ch (bix ds))) = usedAt g2 := by
          rw [usedAt_setCh]; exact usedAt_setK (by simp) (usedAt_of bt (by simp))
        intro x
        rw [e1, ← u1]; exact ut x
    rcases i1.succ b1 with ⟨h1, h2⟩ | ⟨m, k, h2⟩
    · simp only at h1 h2
      rw [h1, if_neg (by simp [isNormalUsed])]
      exact fin st g1 i1 (Fr.refl _ _) (URel.refl _) (SameSeg.refl _) b1 only1 nodv1 (fun _ _ h => h) (by intro m w h; rw [h2] at h; simp at h)
    · simp only at h2
      cases k with
      | hole => have := only1 _ _ h2; omega
      | free => exact absurd (back1 _ _ _ (by simp) h2).1 (snf m)
      | dv => exact absurd h2 (nodv1 _ _)
      | used w =>
        obtain ⟨hw, hn, hm⟩ := i1.cont.used _ _ _ h2
        have h3 : isNormalUsed (st.mem (d + ds)) = true := by unfold isNormalUsed; simp; omega
        have hus : usedSize (st.mem (d + ds)) = objSize w := by
          rcases hm with hm | hm <;> rw [hm]
          · exact usedSize_of (k := 0) hw (by omega)
          · exact usedSize_of hw (by omega)
        have alo := objSize_al hw
        rw [if_pos h3, hus]
        have hmk : mkPrevFree (objSize w) = objSize w + 2 := by unfold mkPrevFree; rw [clr_self alo.1]
        rw [hmk]
        obtain ⟨i2, f2⟩ := i1.set_flag (v := objSize w) (f := objSize w + 2) b1 h2 ⟨alo.1, objSize_idem w⟩ (.inr rfl)
        have hg2 : ∀ x b, (g1.setK (d + ds) m (.used (objSize w))).blk x = some b ↔
          (x = d + ds ∧ b = ⟨m, .used (objSize w)⟩) ∨ (x ≠ d + ds ∧ g1.blk x = some b) := fun x b => setK_some
        refine fin _ _ i2 f2 ?_ ⟨rfl, rfl, rfl⟩ ((hg2 _ _).2 (.inr ⟨by omega, b1⟩)) ?_ ?_ ?_ ?_
        · intro x
          rw [usedAt_setK_used]
          by_cases hx : x = d + ds
          · subst hx; rw [if_pos rfl]
            exact .inr ⟨w, usedAt_some.2 ⟨m, h2⟩, rfl⟩
          · rw [if_neg hx]; exact .inl rfl
        · intro x q h
          rcases (hg2 _ _).1 h with ⟨_, e⟩ | ⟨_, e⟩
          · simp at e
          · exact only1 _ _ e
        · intro x q h
          rcases (hg2 _ _).1 h with ⟨_, e⟩ | ⟨_, e⟩
          · simp at e
          · exact nodv1 _ _ e
        · intro x q h
          rcases (hg2 _ _).1 h with ⟨_, e⟩ | ⟨_, e⟩
          · simp at e
          · exact e
        · intro q w' h
          rcases (hg2 _ _).1 h with ⟨_, e⟩ | ⟨e1, _⟩
          · simp at e; rw [e.2]; exact upd_self _ _ _
          · exact absurd rfl e1

theorem trySizes_some {st st' : St} {ms : Nat} : ∀ {k n : Nat}, trySizes st ms k n = some st' → ∃ n', ms ≤ n' ∧ initSubarea st n' = some st' := by
  intro k
  induction k with
  | zero => intro n h; cases h
  | succ k ih =>
    intro n h
    unfold trySizes at h
    split_ifs at h with h1
    split at h
    · rename_i s hs; injection h with h; subst h; exact ⟨n, h1, hs⟩
    · exact ih h

theorem retireDv_seg (st : St) (subs : List Sub) (f : Nat) :
    retireDv { st with subs := subs, segFree := f } = { retireDv st with subs := subs, segFree := f } := by
  have hp : ∀ (t : St) (a n : Nat), pushFree { t with subs := subs, segFree := f } a n = { pushFree t a n with subs := subs, segFree := f } := by
    intro t a n
    unfold pushFree St.setFb St.store
    simp only
    split <;> rfl
  unfold retireDv
  simp only
  split_ifs with h1 h2
  · exact hp (st.store _ _) _ _
  · exact hp st _ _
  · rfl

/-- Extension of the area by a subarea, after which the area is as good as before. -/
def ExtRel (st st' : St) : Prop := ∃ s, st'.subs = st.subs ++ [s] ∧ s.off = st.segFree ∧ st.segFree ≤ st'.segFree ∧ st'.segSize = st.segSize

theorem extend_res {st st' : St} {g : G} (G0 : Good st g) {mb : Nat} (h : extend st mb = some st') :
    (∃ g', Good st' g' ∧ Fr st g st' g' ∧ URel g g') ∧ ExtRel st st' ∧ st.subs.length < 64 ∧ (Mk st → Mk st') := by
  unfold extend at h
  split at h
  · cases h
  · rename_i s hs
    split_ifs at h with h1
    simp only at h
    split_ifs at h with h2
    all_goals
      split at h
      · cases h
      · rename_i t ht
        injection h with h
        obtain ⟨n', _, hn'⟩ := trySizes_some ht
        obtain ⟨e1, f, e2, e3, e4, e5⟩ := initSubarea_some G0.inv.segAl.1 hn'
        have hlen : 1 < t.subs.length := by
          rw [e2]
          cases hh : st.subs with
          | nil => rw [hh] at hs; simp at hs
          | cons a l => simp
        have hlast : t.subs.getLast? = some ⟨n', st.segFree, n' - n' % 32, st.segFree⟩ := by rw [e2]; simp
        unfold initFreespace at h
        rw [hlast] at h
        simp only at h
        rw [if_pos hlen, e2] at h
        obtain ⟨g1, r1, r2, r3, r4, r5, r6⟩ := retireDv_res G0
        have hr := retireDv_seg st (st.subs ++ [⟨n', st.segFree, n' - n' % 32, st.segFree⟩]) f
        rw [hr] at h
        have hsub := r6.1
        have hfree := r6.2.1
        have hz := r6.2.2
        obtain ⟨g2, q1, q2, q3, q4⟩ := markSub_res r1 r2 r3 e1 (n := n') (f := f) (by rw [hfree]; exact e3) e4 (by rw [hz]; exact e5)
        rw [hsub, hfree] at q1 q2 q4
        rw [h] at q1 q2 q4
        refine ⟨⟨g2, q1, r4.trans q2, ?_⟩, ⟨⟨n', st.segFree, n' - n' % 32, st.segFree⟩, ?_, rfl, ?_, ?_⟩, by unfold MAXSUBS at h1; omega,
          fun hmk => q4 (hmk.fr G0.inv r4 hsub)⟩
        · intro x; rw [q3]; exact r5 x
        · rw [← h]; rfl
        · rw [← h]; show _ ≤ f; omega
        · rw [← h]; exact hz

/-- What an allocation may do: extend the area any number of times, then hand out an object or fail. -/
def SegGrow (st st' : St) : Prop := (∃ l, st'.subs = st.subs ++ l) ∧ st.segFree ≤ st'.segFree ∧ st'.segSize = st.segSize

theorem ExtRel.grow {st st' : St} (h : ExtRel st st') : SegGrow st st' := by
  obtain ⟨s, h1, h2, h3, h4⟩ := h
  exact ⟨⟨[s], h1⟩, h3, h4⟩

theorem SameSeg.grow {st st' : St} (h : SameSeg st st') : SegGrow st st' := ⟨⟨[], by rw [h.1]; simp⟩, by rw [h.2.1]; exact Nat.le_refl _, h.2.2⟩

theorem SegGrow.trans {a b c : St} (h1 : SegGrow a b) (h2 : SegGrow b c) : SegGrow a c := by
  obtain ⟨⟨l1, e1⟩, f1, g1⟩ := h1
  obtain ⟨⟨l2, e2⟩, f2, g2⟩ := h2
  exact ⟨⟨l1 ++ l2, by rw [e2, e1]; simp⟩, by omega, g2.trans g1⟩

/-- The recursion of `wg_alloc_gints`. -/
theorem allocF_res : ∀ (k : Nat) {st : St} {g : G}, Good st g → ∀ {wanted : Nat}, wanted % 8 = 0 →
    SegGrow st (allocF k st wanted).1 ∧ (Mk st → Mk (allocF k st wanted).1) ∧
    ((∃ a g1, (allocF k st wanted).2 = some a ∧ Good (allocF k st wanted).1 g1 ∧ Fr st g (allocF k st wanted).1 g1 ∧ usedAt g a = none ∧
        ∃ gm, URel g gm ∧ ∀ x, usedAt g1 x = if x = a then some wanted else usedAt gm x) ∨
     (∃ g1, (allocF k st wanted).2 = none ∧ Good (allocF k st wanted).1 g1 ∧ Fr st g (allocF k st wanted).1 g1 ∧ URel g g1)) := by
  intro k
  induction k with
  | zero =>
    intro st g G0 wanted hw
    exact ⟨(SameSeg.refl _).grow, id, .inr ⟨g, rfl, G0, Fr.refl _ _, URel.refl _⟩⟩
  | succ k ih =>
    intro st g G0 wanted hw
    unfold allocF
    cases hh : allocHere st wanted with
    | some r =>
      simp only
      obtain ⟨a, h1, g1, h2, h3, h4, h5, h6⟩ := allocHere_res G0 hw hh
      exact ⟨h6.grow, fun hmk => hmk.fr G0.inv h3 h6.1, .inl ⟨a, g1, h1, h2, h3, h4, g, URel.refl _, h5⟩⟩
    | none =>
      simp only
      cases he : extend st (usedBytes wanted) with
      | none => exact ⟨(SameSeg.refl _).grow, id, .inr ⟨g, rfl, G0, Fr.refl _ _, URel.refl _⟩⟩
      | some st1 =>
        simp only
        obtain ⟨⟨g1, q1, q2, q3⟩, q4, _, q5⟩ := extend_res G0 he
        obtain ⟨r1, r3, r2⟩ := ih q1 hw
        refine ⟨q4.grow.trans r1, fun hmk => r3 (q5 hmk), ?_⟩
        rcases r2 with ⟨a, g2, h1, h2, h3, h4, gm, h5, h6⟩ | ⟨g2, h1, h2, h3, h4⟩
        · refine .inl ⟨a, g2, h1, h2, q2.trans h3, ?_, gm, q3.trans h5, h6⟩
          rcases q3 a with e | ⟨w, e1, e2⟩
          · rw [← e]; exact h4
          · rw [h4] at e2; cases e2
        · exact .inr ⟨g2, h1, h2, q2.trans h3, q3.trans h4⟩

/-- A new area satisfies the invariant and has no objects. -/
theorem newArea_good {mem : Nat → Nat} {sf ss size : Nat} {st : St} (h8 : sf % 8 = 0) (h0 : 0 < sf) (hs : sf ≤ ss) (hz : ss ≤ 2^40)
    (h : newArea mem sf ss size = some st) :
    ∃ g, Good st g ∧ (∀ x, usedAt g x = none) ∧ st.segSize = ss ∧ sf ≤ st.segFree ∧
      (∀ y, y < sf ∨ ss ≤ y → st.mem y = mem y) ∧ (∀ s ∈ st.subs, s.off = sf) ∧ Mk st := by
  unfold newArea at h
  split at h
  · cases h
  · rename_i t ht
    injection h with h
    obtain ⟨e1, f, e2, e3, e4, e5⟩ := initSubarea_some h8 ht
    simp only [List.nil_append] at e2 e3 e5
    have hemp : Inv ⟨mem, fun _ => 0, [], sf, ss⟩ ⟨fun _ => none, fun _ => []⟩ := by
      refine ⟨?_, Cont.mk (Core.mk ?_ ?_ ?_ ?_ ?_ ?_ ?_) ?_ ?_, ?_, ⟨h8, h0, hs, hz⟩⟩
      · constructor <;> simp
      · simp
      · simp
      · simp
      · simp
      · simp
      · simp
      · simp
      · intro i _; simp [DL]
      · simp
      · simp
    obtain ⟨g, q1, q2, q3, q4⟩ := markSub_res hemp (by simp) (by intro a n; simp) e1 (n := size) (f := f) e3 e4 e5
    have hst : st = markSub { (⟨mem, fun _ => 0, [], sf, ss⟩ : St) with segFree := f, subs := [] ++ [⟨size, sf, size - size % 32, sf⟩] }
        ⟨size, sf, size - size % 32, sf⟩ := by
      rw [← h, e2]; rfl
    rw [← hst] at q1 q2 q4
    refine ⟨g, q1, ?_, by rw [hst]; rfl, by rw [hst]; show sf ≤ f; omega, ?_, ?_, q4 (by intro s hs; simp at hs)⟩
    · intro x; rw [q3]; rfl
    · intro y hy
      exact (q2 y ⟨hy, by simp, by simp⟩).1
    · intro s hs
      rw [hst] at hs
      have : s ∈ [(⟨size, sf, size - size % 32, sf⟩ : Sub)] := hs
      simp only [List.mem_singleton] at this
      subst this; rfl

end WG.Varlen
