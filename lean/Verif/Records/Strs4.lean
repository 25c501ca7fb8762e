import Verif.Records.Strs3
/-! # The string area: free_field_encoffset -/
namespace WG.Recs

variable {C : Prop} {h h' : Heap} {F F' : Pos → Option Word}

/-- Objects may have gone; those that remain have their contents. -/
structure Shrunk (h h' : Heap) : Prop where
  recs : h'.recs = h.recs
  cells : h'.cells = h.cells
  hlen : h'.hlen = h.hlen
  sstrs : ∀ o b, h'.sstrs o = some b → h.sstrs o = some b
  dbls : ∀ o b, h'.dbls o = some b → h.dbls o = some b
  ints : ∀ o b, h'.ints o = some b → h.ints o = some b
  lstrs : ∀ o s', h'.lstrs o = some s' → ∃ s, h.lstrs o = some s ∧ s'.info = s.info ∧ s'.extra = s.extra ∧ s'.data = s.data

theorem Shrunk.refl (h : Heap) : Shrunk h h := ⟨rfl, rfl, rfl, fun _ _ e => e, fun _ _ e => e, fun _ _ e => e, fun _ s e => ⟨s, e, rfl, rfl, rfl⟩⟩

theorem Shrunk.trans {h1 h2 h3 : Heap} (a : Shrunk h1 h2) (b : Shrunk h2 h3) : Shrunk h1 h3 :=
  ⟨b.recs.trans a.recs, b.cells.trans a.cells, b.hlen.trans a.hlen, fun o x e => a.sstrs o x (b.sstrs o x e),
    fun o x e => a.dbls o x (b.dbls o x e), fun o x e => a.ints o x (b.ints o x e), fun o s e => by
      obtain ⟨s2, e1, e2, e3, e4⟩ := b.lstrs o s e
      obtain ⟨s1, g1, g2, g3, g4⟩ := a.lstrs o s2 e1
      exact ⟨s1, g1, e2.trans g2, e3.trans g3, e4.trans g4⟩⟩

theorem RefOnly.shrunk (r : RefOnly h h') : Shrunk h h' :=
  ⟨r.recs, r.cells, r.hlen, fun o b e => by rw [← r.sstrs]; exact e, fun o b e => by rw [← r.dbls]; exact e,
    fun o b e => by rw [← r.ints]; exact e, fun o s e => by
      obtain ⟨s', e1, e2, e3, e4, e5⟩ := r.symm.get e
      exact ⟨s', e1, e2.symm, e4.symm, e5.symm⟩⟩

theorem ChainOnly.shrunk_drop (r : ChainOnly h h') (o : Word) : Shrunk h (h'.dropL o) :=
  ⟨r.recs, r.cells, r.hlen, fun o b e => by rw [← r.sstrs]; exact e, fun o b e => by rw [← r.dbls]; exact e,
    fun o b e => by rw [← r.ints]; exact e, fun x s e => by
      by_cases hx : x = o
      · subst hx; simp [Heap.dropL, upd_self] at e
      · simp only [Heap.dropL, upd_ne _ _ hx] at e
        obtain ⟨s', e1, e2, e3, e4, e5⟩ := r.symm.get e
        exact ⟨s', e1, e2.symm, e4.symm, e5.symm⟩⟩

/-! ### Freeing does not touch another string -/

theorem dropL_setChain (h : Heap) (b : Nat) (loc : Option Word) (w o : Word) (hl : ∀ x, loc = some x → decodeLongstr x ≠ o) :
    (h.dropL o).setChain b loc w = (h.setChain b loc w).dropL o := by
  cases loc with
  | none => rfl
  | some x =>
    have hx := hl x rfl
    simp only [Heap.setChain, Heap.dropL, upd_ne _ _ hx]
    congr 1
    funext y
    by_cases h1 : y = o
    · subst h1; simp [upd, Ne.symm hx]
    · by_cases h2 : y = decodeLongstr x
      · subst h2; simp [upd, hx]
      · simp [upd, h1, h2]

theorem unlinkStr_frame (h : Heap) (o : Word) (b : Nat) (w : Word) :
    ∀ (n : Nat) (loc : Option Word) (cur : Word) (g : Heap), (∀ x, loc = some x → decodeLongstr x ≠ o) →
      unlinkStr (h.dropL o) b w n loc cur = some g → ∃ g', unlinkStr h b w n loc cur = some g' ∧ g'.dropL o = g := by
  intro n
  induction n with
  | zero => intro loc cur g _ hg; simp [unlinkStr] at hg
  | succ n ih =>
    intro loc cur g hl hg
    rw [unlinkStr] at hg ⊢
    by_cases h0 : cur = 0#64
    · rw [if_pos h0] at hg ⊢; cases hg; exact ⟨h, rfl, rfl⟩
    · rw [if_neg h0] at hg ⊢
      by_cases ho : decodeLongstr cur = o
      · simp [Heap.dropL, ho, upd_self] at hg
      · have e : (h.dropL o).lstrs (decodeLongstr cur) = h.lstrs (decodeLongstr cur) := by simp [Heap.dropL, upd_ne _ _ ho]
        rw [e] at hg
        cases hs : h.lstrs (decodeLongstr cur) with
        | none => rw [hs] at hg; simp at hg
        | some s =>
          rw [hs] at hg
          simp only at hg ⊢
          by_cases hw : cur = w
          · rw [if_pos hw] at hg ⊢
            cases hg
            exact ⟨_, rfl, (dropL_setChain h b loc s.chain o hl).symm⟩
          · rw [if_neg hw] at hg ⊢
            exact ih (some cur) s.chain g (by rintro x ⟨⟩; exact ho) hg

theorem dropL_upd (h : Heap) {o x : Word} (hx : x ≠ o) (v : Option LStr) :
    ({ h.dropL o with lstrs := upd (h.dropL o).lstrs x v } : Heap) = ({ h with lstrs := upd h.lstrs x v } : Heap).dropL o := by
  simp only [Heap.dropL]
  congr 1
  funext y
  by_cases h1 : y = o
  · subst h1; simp [upd, Ne.symm hx]
  · by_cases h2 : y = x
    · subst h2; simp [upd, hx]
    · simp [upd, h1, h2]

theorem freeField_frame (h : Heap) (o : Word) (n : Nat) (e : Word) (g : Heap)
    (he : isLongstr e = true → ∀ s, (h.dropL o).lstrs (decodeLongstr e) = some s → s.extra = 0#64)
    (hg : freeField (n + 1) (h.dropL o) e = some g) : ∃ g', freeField (n + 1) h e = some g' ∧ g'.dropL o = g := by
  rw [freeField] at hg ⊢
  by_cases h1 : isDatarec e = true
  · rw [if_pos h1] at hg ⊢; cases hg; exact ⟨h, rfl, rfl⟩
  rw [if_neg h1] at hg ⊢
  by_cases h2 : isLongstr e = true
  · rw [if_pos h2] at hg ⊢
    by_cases ho : decodeLongstr e = o
    · simp [Heap.dropL, ho, upd_self] at hg
    · have eq1 : (h.dropL o).lstrs (decodeLongstr e) = h.lstrs (decodeLongstr e) := by simp [Heap.dropL, upd_ne _ _ ho]
      have he' := he h2
      rw [eq1] at hg he'
      cases hs : h.lstrs (decodeLongstr e) with
      | none => rw [hs] at hg; simp at hg
      | some s =>
        have hx := he' s hs
        rw [hs] at hg
        simp only at hg ⊢
        by_cases h3 : s.refc - 1 > 0
        · rw [if_pos h3] at hg ⊢
          cases hg
          exact ⟨_, rfl, (dropL_upd h ho _).symm⟩
        · rw [if_neg h3] at hg ⊢
          have e1 : removeStrhash (h.dropL o) e =
              unlinkStr (h.dropL o) (hashTyped h.hlen (s.data.take s.len) none) e walkFuel none (h.hash (hashTyped h.hlen (s.data.take s.len) none)) := by
            rw [removeStrhash, eq1, hs]
            simp only [extraOf, hx, if_true]
            rfl
          have e2 : removeStrhash h e =
              unlinkStr h (hashTyped h.hlen (s.data.take s.len) none) e walkFuel none (h.hash (hashTyped h.hlen (s.data.take s.len) none)) := by
            rw [removeStrhash, hs]
            simp only [extraOf, hx, if_true]
          rw [e1] at hg
          rw [e2]
          cases hu : unlinkStr (h.dropL o) (hashTyped h.hlen (s.data.take s.len) none) e walkFuel none
              (h.hash (hashTyped h.hlen (s.data.take s.len) none)) with
          | none => rw [hu] at hg; simp at hg
          | some g1 =>
            obtain ⟨g1', q1, q2⟩ := unlinkStr_frame h o _ e walkFuel none _ g1 (by simp) hu
            rw [hu] at hg
            rw [q1]
            simp only [hx, ne_eq, not_true_eq_false, if_false] at hg ⊢
            cases hg
            rw [← q2]
            exact ⟨_, rfl, (dropL_upd g1' ho _).symm⟩
  rw [if_neg h2] at hg ⊢
  by_cases h3 : isShortstr e = true
  · rw [if_pos h3] at hg ⊢
    have hh : (h.dropL o).sstrs = h.sstrs := rfl
    rw [hh] at hg
    split_ifs at hg ⊢
    simp only [Option.some.injEq] at hg
    exact ⟨_, rfl, by rw [← hg]; rfl⟩
  rw [if_neg h3] at hg ⊢
  by_cases h4 : isFulldouble e = true
  · rw [if_pos h4] at hg ⊢
    have hh : (h.dropL o).dbls = h.dbls := rfl
    rw [hh] at hg
    split_ifs at hg ⊢
    simp only [Option.some.injEq] at hg
    exact ⟨_, rfl, by rw [← hg]; rfl⟩
  rw [if_neg h4] at hg ⊢
  by_cases h5 : isFullint e = true
  · rw [if_pos h5] at hg ⊢
    have hh : (h.dropL o).ints = h.ints := rfl
    rw [hh] at hg
    split_ifs at hg ⊢
    simp only [Option.some.injEq] at hg
    exact ⟨_, rfl, by rw [← hg]; rfl⟩
  rw [if_neg h5] at hg ⊢
  cases hg; exact ⟨h, rfl, rfl⟩

/-! ### Releasing a value -/

theorem held_drop {p : Pos} (hp : isExt p = false) (q : Pos) (x : Word) : Held h (setF F p none) q x ↔ q ≠ p ∧ Held h F q x := by
  rw [held_setF hp]; split_ifs with c <;> simp [c]

theorem drop_plain (hI : SInv C h F) {p : Pos} {w : Word} (hFp : F p = some w) (hw : kind w = .imm ∨ kind w = .rcd) :
    SInv C h (setF F p none) := by
  refine hI.congrF ?_
  intro q x h1 h2
  simp only [setF]
  split_ifs with c
  · subst c
    rw [hFp]
    simp only [reduceCtorEq, Option.some.injEq, false_iff]
    rintro rfl
    rcases hw with k | k <;> contradiction
  · rfl

theorem drop_cell (hI : SInv C h F) {p : Pos} {w : Word} (hp : isExt p = false) (hFp : F p = some w) (hw : Owned w) {h' : Heap}
    (e1 : h'.lstrs = h.lstrs) (e2 : h'.hash = h.hash) (e3 : h'.hlen = h.hlen)
    (hs : ∀ o b, h'.sstrs o = some b → h.sstrs o = some b) (hl : ∀ x, LiveS h x → x ≠ w → LiveS h' x)
    (hx : ∀ x, isShortstr x = true → x ≠ w → h'.sstrs (decodeShortstr x) = h.sstrs (decodeShortstr x)) :
    SInv C h' (setF F p none) := by
  have hpw : Held h F p w := by rw [held_of_not_ext hp, hFp]
  have hne : ∀ q x, q ≠ p → Held h F q x → x ≠ w := by
    rintro q x hq hh rfl
    exact hq (hI.own q p x hw hh hpw)
  refine hI.cells e1 e2 e3 (fun o b hb => hI.sstr o b (hs o b hb)) ?_ ?_ ?_ ?_
  · intro q x hq
    rw [held_drop hp] at hq
    exact hl x (hI.live q x hq.2) (hne q x hq.1 hq.2)
  · intro q x hq
    rw [held_drop hp] at hq
    exact hq.2
  · intro q x hk hq
    rw [held_drop hp]
    refine ⟨?_, hq⟩
    rintro rfl
    rw [held_of_not_ext hp, hFp] at hq
    cases hq
    rcases hw with k | k | k <;> rw [k] at hk <;> cases hk
  · intro o s hs' hsx
    refine hx _ hsx (hne (.ext o) _ ?_ ⟨s, hs', rfl⟩)
    rintro rfl
    simp [isExt] at hp

/-- Releasing a value that has no extra string. -/
theorem SInv.drop0 (hI : SInv C h F) (n : Nat) {p : Pos} {w : Word} {i : Nat} (hp : isExt p = false) (hFp : F p = some w)
    (hi : p ≠ .tmp i) (hFi : F (.tmp i) = none)
    (hx : isLongstr w = true → ∀ s, h.lstrs (decodeLongstr w) = some s → s.extra = 0#64) :
    ∃ h', freeField (n + 1) h w = some h' ∧ SInv C h' (setF F p none) ∧ Shrunk h h' := by
  have hpw : Held h F p w := by rw [held_of_not_ext hp, hFp]
  have hl := hI.live p w hpw
  rw [freeField]
  rcases kind_cases w with c | c | c | c | c | c
  · refine ⟨h, ?_, drop_plain hI hFp (Or.inl c.1), Shrunk.refl h⟩
    simp [c]
  · refine ⟨h, ?_, drop_plain hI hFp (Or.inr c.1), Shrunk.refl h⟩
    simp [c]
  · rw [LiveS, c.1] at hl
    obtain ⟨s, hs⟩ := hl
    have hw := c.2.2.2.2.1
    rw [if_neg (by simp [c]), if_pos hw, hs]
    simp only
    have hcnt := hI.refc _ s hs
    rw [lstr_enc_dec hw] at hcnt
    by_cases hr : s.refc - 1 > 0
    · rw [if_pos hr]
      refine ⟨_, rfl, ?_, (refOnly_upd hs).shrunk⟩
      refine hI.refOnly (refOnly_upd hs) ?_ ?_ ?_
      · intro q x hq; rw [held_drop hp] at hq; exact hI.live q x hq.2
      · intro a b x hx ha hb
        rw [held_drop hp] at ha hb
        exact hI.own a b x hx ha.2 hb.2
      · intro o s' hs'
        by_cases hox : o = decodeLongstr w
        · subst hox
          simp only [upd_self, Option.some.injEq] at hs'
          subst hs'
          rw [lstr_enc_dec hw]
          refine hcnt.drop hpw ?_
          intro q; rw [held_drop hp]; tauto
        · simp only [upd_ne _ _ hox] at hs'
          refine (hI.refc o s' hs').congr ?_
          intro q
          rw [held_drop hp]
          refine ⟨fun hh => hh.2, fun hh => ⟨?_, hh⟩⟩
          rintro rfl
          rw [held_of_not_ext hp, hFp] at hh
          cases hh
          exact hox (lstr_dec_enc (hI.al o s' hs')).symm
    · rw [if_neg hr]
      have hsole : Sole h F p w := hcnt.le_one (by omega) hpw
      obtain ⟨h1, g1, g2, g3⟩ := hI.remove hp hFp hw hs hsole hi hFi
      rw [g1]
      have hx0 := hx hw s hs
      simp only [hx0, ne_eq, not_true_eq_false, if_false]
      refine ⟨_, rfl, ?_, g2.shrunk_drop _⟩
      rw [hx0] at g3
      refine g3.congrF ?_
      intro q x h1 h2
      simp only [setF]
      by_cases c1 : q = .tmp i
      · subst c1
        simp only [Ne.symm hi, if_false, hFi, if_true, Option.some.injEq, reduceCtorEq, false_iff]
        rintro rfl
        exact h1 (by decide)
      · simp [c1]
  · have hw := c.2.2.2.2.2
    rw [LiveS, c.1] at hl
    obtain ⟨b, hb⟩ := hl
    rw [if_neg (by simp [c]), if_neg (by simp [c]), if_pos hw, if_pos (by simp [hb])]
    refine ⟨_, rfl, ?_, ⟨rfl, rfl, rfl, ?_, fun _ _ e => e, fun _ _ e => e, fun _ s e => ⟨s, e, rfl, rfl, rfl⟩⟩⟩
    · have hsub : ∀ o x, upd h.sstrs (decodeShortstr w) none o = some x → h.sstrs o = some x := by
        intro o x e
        by_cases ho : o = decodeShortstr w
        · subst ho; simp [upd_self] at e
        · rwa [upd_ne _ _ ho] at e
      have hne : ∀ x, isShortstr x = true → x ≠ w → decodeShortstr x ≠ decodeShortstr w := by
        intro x hx hxw e; apply hxw; rw [← sstr_enc_dec hx, ← sstr_enc_dec hw, e]
      refine drop_cell hI hp hFp (Or.inl c.1) rfl rfl rfl hsub ?_ ?_
      · intro x hl hxw
        unfold LiveS at *
        rcases kind_cases x with k | k | k | k | k | k <;> rw [k.1] at hl ⊢ <;> simp only at hl ⊢
        · exact hl
        · rw [upd_ne _ _ (hne x k.2.2.2.2.2 hxw)]; exact hl
        · exact hl
        · exact hl
      · intro x hx hxw
        exact upd_ne _ _ (hne x hx hxw)
    · intro o x e
      by_cases ho : o = decodeShortstr w
      · subst ho; simp [upd_self] at e
      · simpa only [upd_ne _ _ ho] using e
  · have hw := c.2.2.2.2.2.2
    rw [LiveS, c.1] at hl
    obtain ⟨b, hb⟩ := hl
    rw [if_neg (by simp [c]), if_neg (by simp [c]), if_neg (by simp [c]), if_pos hw, if_pos (by simp [hb])]
    refine ⟨_, rfl, ?_, ⟨rfl, rfl, rfl, fun _ _ e => e, ?_, fun _ _ e => e, fun _ s e => ⟨s, e, rfl, rfl, rfl⟩⟩⟩
    · refine drop_cell hI hp hFp (Or.inr (Or.inl c.1)) rfl rfl rfl (fun _ _ e => e) ?_ (fun _ _ _ => rfl)
      intro x hl hxw
      unfold LiveS at *
      rcases kind_cases x with k | k | k | k | k | k <;> rw [k.1] at hl ⊢ <;> simp only at hl ⊢
      · exact hl
      · exact hl
      · rw [upd_ne]
        · exact hl
        · intro e; apply hxw; rw [← dbl_enc_dec k.2.2.2.2.2.2, ← dbl_enc_dec hw, e]
      · exact hl
    · intro o x e
      by_cases ho : o = decodeFulldouble w
      · subst ho; simp [upd_self] at e
      · simpa only [upd_ne _ _ ho] using e
  · have hw := c.2.2.2.2.2.2.2
    rw [LiveS, c.1] at hl
    obtain ⟨b, hb⟩ := hl
    rw [if_neg (by simp [c]), if_neg (by simp [c]), if_neg (by simp [c]), if_neg (by simp [c]), if_pos hw, if_pos (by simp [hb])]
    refine ⟨_, rfl, ?_, ⟨rfl, rfl, rfl, fun _ _ e => e, fun _ _ e => e, ?_, fun _ s e => ⟨s, e, rfl, rfl, rfl⟩⟩⟩
    · refine drop_cell hI hp hFp (Or.inr (Or.inr c.1)) rfl rfl rfl (fun _ _ e => e) ?_ (fun _ _ _ => rfl)
      intro x hl hxw
      unfold LiveS at *
      rcases kind_cases x with k | k | k | k | k | k <;> rw [k.1] at hl ⊢ <;> simp only at hl ⊢
      · exact hl
      · exact hl
      · exact hl
      · rw [upd_ne]
        · exact hl
        · intro e; apply hxw; rw [← int_enc_dec k.2.2.2.2.2.2.2, ← int_enc_dec hw, e]
    · intro o x e
      by_cases ho : o = decodeFullintOffset w
      · subst ho; simp [upd_self] at e
      · simpa only [upd_ne _ _ ho] using e

/-- Releasing a value. Afterwards the strings nobody holds are gone. -/
theorem SInv.drop (hI : SInv C h F) {p : Pos} {w : Word} {i j : Nat} (hp : isExt p = false) (hFp : F p = some w)
    (hi : p ≠ .tmp i) (hFi : F (.tmp i) = none) (hj : p ≠ .tmp j) (hFj : F (.tmp j) = none) (hij : i ≠ j) :
    ∃ h', freeField freeDepth h w = some h' ∧ SInv C h' (setF F p none) ∧ Shrunk h h' := by
  by_cases hx : isLongstr w = true → ∀ s, h.lstrs (decodeLongstr w) = some s → s.extra = 0#64 ∨ s.refc > 1
  · by_cases hx' : isLongstr w = true → ∀ s, h.lstrs (decodeLongstr w) = some s → s.extra = 0#64
    · exact hI.drop0 7 hp hFp hi hFi hx'
    · -- refc > 1: the same as drop0, which does not look at the extra string then
      have hpw : Held h F p w := by rw [held_of_not_ext hp, hFp]
      have hw : isLongstr w = true := by
        cases hh : isLongstr w with
        | true => rfl
        | false => exact absurd (fun e => by rw [hh] at e; cases e) hx'
      have hl := hI.live p w hpw
      rw [LiveS, isPtr_lstr hw] at hl
      obtain ⟨s, hs⟩ := hl
      have hr : s.refc > 1 := by
        rcases hx hw s hs with a | a
        · exact absurd (fun _ s' hs' => by rw [hs] at hs'; cases hs'; exact a) hx'
        · exact a
      have hcnt := hI.refc _ s hs
      rw [lstr_enc_dec hw] at hcnt
      have hnd : isDatarec w = false := by rcases kind_cases w with k | k | k | k | k | k <;> simp_all
      rw [freeDepth, freeField, if_neg (by simp [hnd]), if_pos hw, hs]
      simp only
      rw [if_pos (by omega)]
      refine ⟨_, rfl, ?_, (refOnly_upd hs).shrunk⟩
      refine hI.refOnly (refOnly_upd hs) ?_ ?_ ?_
      · intro q x hq; rw [held_drop hp] at hq; exact hI.live q x hq.2
      · intro a b x hx ha hb
        rw [held_drop hp] at ha hb
        exact hI.own a b x hx ha.2 hb.2
      · intro o s' hs'
        by_cases hox : o = decodeLongstr w
        · subst hox
          simp only [upd_self, Option.some.injEq] at hs'
          subst hs'
          rw [lstr_enc_dec hw]
          refine hcnt.drop hpw ?_
          intro q; rw [held_drop hp]; tauto
        · simp only [upd_ne _ _ hox] at hs'
          refine (hI.refc o s' hs').congr ?_
          intro q
          rw [held_drop hp]
          refine ⟨fun hh => hh.2, fun hh => ⟨?_, hh⟩⟩
          rintro rfl
          rw [held_of_not_ext hp, hFp] at hh
          cases hh
          exact hox (lstr_dec_enc (hI.al o s' hs')).symm
  · -- the last reference to a string with an extra string
    simp only [not_forall] at hx
    obtain ⟨hw, s, hs, hor⟩ := hx
    have h0 : s.extra ≠ 0#64 := fun e => hor (Or.inl e)
    have hr : ¬ s.refc - 1 > 0 := fun e => hor (Or.inr (by omega))
    have hpw : Held h F p w := by rw [held_of_not_ext hp, hFp]
    have hcnt := hI.refc _ s hs
    rw [lstr_enc_dec hw] at hcnt
    have hsole : Sole h F p w := hcnt.le_one (by omega) hpw
    obtain ⟨h1, g1, g2, g3⟩ := hI.remove hp hFp hw hs hsole hi hFi
    have hnd : isDatarec w = false := by rcases kind_cases w with k | k | k | k | k | k <;> simp_all
    rw [freeDepth, freeField, if_neg (by simp [hnd]), if_pos hw, hs]
    simp only
    rw [if_neg hr, g1]
    simp only [h0, ne_eq, not_false_eq_true, if_true]
    have hex : isLongstr s.extra = true → ∀ s', (h1.dropL (decodeLongstr w)).lstrs (decodeLongstr s.extra) = some s' → s'.extra = 0#64 := by
      intro hlx s' hs'
      rcases hI.ext _ s hs with a | a | ⟨a, e, q1, q2, q3⟩
      · exact absurd a h0
      · exfalso; rcases kind_cases s.extra with k | k | k | k | k | k <;> simp_all
      · obtain ⟨s2, e1, e2, e3, e4⟩ := (g2.shrunk_drop (decodeLongstr w)).lstrs _ s' hs'
        rw [q1] at e1; cases e1
        rw [e3, q2]
    obtain ⟨h2, f1, f2, f3⟩ := g3.drop0 6 (p := .tmp i) (w := s.extra) (i := j) rfl (by simp [setF]) (by simp [hij]) (by
      simp [setF, Ne.symm hj, hFj]; omega) hex
    obtain ⟨h2', q1, q2⟩ := freeField_frame h1 (decodeLongstr w) 6 s.extra h2 hex f1
    rw [q1]
    refine ⟨_, rfl, ?_, ?_⟩
    · have : setF (setF (setF F p none) (.tmp i) (some s.extra)) (.tmp i) none = setF F p none := by
        funext q
        simp only [setF]
        split_ifs with a b
        · rfl
        · rw [a, hFi]
        · rfl
        · rfl
      rw [this] at f2
      change SInv C (h2'.dropL (decodeLongstr w)) _
      rw [q2]; exact f2
    · change Shrunk h (h2'.dropL (decodeLongstr w))
      rw [q2]
      exact (g2.shrunk_drop _).trans f3

end WG.Recs
