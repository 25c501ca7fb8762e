import Verif.Records.Strs
/-! # The string area: holding and releasing values -/
namespace WG.Recs

variable {C : Prop} {h h' : Heap} {F F' : Pos → Option Word}

def noRef (s : LStr) : LStr := { s with refc := 0 }

/-- Only reference counts differ. -/
structure RefOnly (h h' : Heap) : Prop where
  recs : h'.recs = h.recs
  cells : h'.cells = h.cells
  sstrs : h'.sstrs = h.sstrs
  dbls : h'.dbls = h.dbls
  ints : h'.ints = h.ints
  hash : h'.hash = h.hash
  hlen : h'.hlen = h.hlen
  lstrs : ∀ o, (h'.lstrs o).map noRef = (h.lstrs o).map noRef

theorem RefOnly.refl (h : Heap) : RefOnly h h := ⟨rfl, rfl, rfl, rfl, rfl, rfl, rfl, fun _ => rfl⟩

theorem RefOnly.symm (r : RefOnly h h') : RefOnly h' h :=
  ⟨r.recs.symm, r.cells.symm, r.sstrs.symm, r.dbls.symm, r.ints.symm, r.hash.symm, r.hlen.symm, fun o => (r.lstrs o).symm⟩

theorem RefOnly.get (r : RefOnly h h') {o : Word} {s : LStr} (hs : h.lstrs o = some s) :
    ∃ s', h'.lstrs o = some s' ∧ s'.info = s.info ∧ s'.chain = s.chain ∧ s'.extra = s.extra ∧ s'.data = s.data := by
  have := r.lstrs o
  rw [hs] at this
  cases hh : h'.lstrs o with
  | none => rw [hh] at this; simp at this
  | some s' =>
    rw [hh] at this
    simp only [Option.map_some, Option.some.injEq, noRef, LStr.mk.injEq] at this
    exact ⟨s', rfl, this.1, this.2.2.1, this.2.2.2.1, this.2.2.2.2⟩

theorem decodeBytes_congr {w : Word} (h1 : isShortstr w = true → h'.sstrs (decodeShortstr w) = h.sstrs (decodeShortstr w))
    (h2 : isLongstr w = true → (h'.lstrs (decodeLongstr w)).map (·.data) = (h.lstrs (decodeLongstr w)).map (·.data)) :
    decodeBytes h' w = decodeBytes h w := by
  unfold decodeBytes
  split_ifs with a b
  · exact h1 a
  · exact h2 b
  · rfl

theorem keyOf_congr {o : Word} {s s' : LStr} (hs : h.lstrs o = some s) (hs' : h'.lstrs o = some s') (hi : s'.info = s.info)
    (hd : s'.data = s.data) (he : s'.extra = s.extra) (hx : s.extra = 0#64 ∨ decodeBytes h' s.extra = decodeBytes h s.extra) :
    keyOf h' o = keyOf h o := by
  have e1 : s'.len = s.len := by simp only [LStr.len, LStr.size, hi, hd]
  have e2 : s'.type = s.type := by simp only [LStr.type, hi]
  have e3 : extraOf h' s' = extraOf h s := by
    unfold extraOf
    rw [he]
    rcases hx with hx | hx
    · simp [hx]
    · simp only [decodeStr, hx]
  simp only [keyOf, hs, hs', Option.bind_some, e1, e2, e3, hd]

theorem RefOnly.decodeBytes (r : RefOnly h h') (w : Word) : decodeBytes h' w = decodeBytes h w := by
  refine decodeBytes_congr (fun _ => by rw [r.sstrs]) (fun _ => ?_)
  have := r.lstrs (decodeLongstr w)
  cases hh : h.lstrs (decodeLongstr w) <;> cases hh' : h'.lstrs (decodeLongstr w) <;> rw [hh, hh'] at this <;>
    simp_all [noRef]

theorem RefOnly.none_iff (r : RefOnly h h') (o : Word) : h'.lstrs o = none ↔ h.lstrs o = none := by
  have := r.lstrs o
  cases hh : h.lstrs o <;> cases hh' : h'.lstrs o <;> rw [hh, hh'] at this <;> simp_all

theorem RefOnly.key (r : RefOnly h h') (o : Word) : keyOf h' o = keyOf h o := by
  cases hs : h.lstrs o with
  | none => simp [keyOf, hs, (r.none_iff o).2 hs]
  | some s =>
    obtain ⟨s', h1, h2, h3, h4, h5⟩ := r.get hs
    exact keyOf_congr hs h1 h2 h5 h4 (Or.inr (r.decodeBytes _))

theorem RefOnly.lnext (r : RefOnly h h') : lnext h' = lnext h := by
  funext w
  unfold Recs.lnext
  cases hs : h.lstrs (decodeLongstr w) with
  | none => simp [(r.none_iff _).2 hs]
  | some s =>
    obtain ⟨s', h1, h2, h3, h4, h5⟩ := r.get hs
    simp [h1, h3]

theorem HashOK.congr (hh : HashOK h) (hk : ∀ o, keyOf h' o = keyOf h o) (hn : lnext h' = lnext h) (h1 : h'.hash = h.hash)
    (h2 : h'.hlen = h.hlen) : HashOK h' := by
  obtain ⟨hc, a, b⟩ := hh
  refine ⟨hc, fun i => by rw [hn, h1]; exact a i, fun i w hw => ?_⟩
  rw [hk, h2]; exact b i w hw

theorem full_congr (hh : C → Complete h ∧ Uniq h) (hk : ∀ o, keyOf h' o = keyOf h o) (hn : lnext h' = lnext h) (h1 : h'.hash = h.hash)
    (h2 : h'.hlen = h.hlen) : C → Complete h' ∧ Uniq h' := by
  intro c
  obtain ⟨a, b⟩ := hh c
  refine ⟨fun o k l => ?_, fun o o' k => ?_⟩
  · rw [hk, hn, h1, h2]; exact a o k l
  · rw [hk, hk]; exact b o o' k

theorem RefOnly.extraOK (r : RefOnly h h') {w : Word} (he : ExtraOK h w) : ExtraOK h' w := by
  rcases he with he | he | ⟨h1, e, h2, h3, h4⟩
  · exact Or.inl he
  · exact Or.inr (Or.inl he)
  · obtain ⟨e', g1, g2, g3, g4, g5⟩ := r.get h2
    exact Or.inr (Or.inr ⟨h1, e', g1, by rw [g4, h3], by rw [g5]; exact h4⟩)

theorem RefOnly.held (r : RefOnly h h') (F : Pos → Option Word) (p : Pos) (w : Word) : Held h' F p w ↔ Held h F p w := by
  cases p with
  | fld _ _ => exact Iff.rfl
  | tmp _ => exact Iff.rfl
  | ext s =>
    constructor
    · rintro ⟨x, hx, he⟩
      obtain ⟨x', g1, g2, g3, g4, g5⟩ := r.symm.get hx
      exact ⟨x', g1, by rw [g4, he]⟩
    · rintro ⟨x, hx, he⟩
      obtain ⟨x', g1, g2, g3, g4, g5⟩ := r.get hx
      exact ⟨x', g1, by rw [g4, he]⟩

theorem RefOnly.live (r : RefOnly h h') {w : Word} (hl : LiveS h w) : LiveS h' w := by
  unfold LiveS at *
  split <;> simp_all only
  · obtain ⟨s, hs⟩ := hl
    obtain ⟨s', g1, _⟩ := r.get hs
    exact ⟨s', g1⟩
  · rw [r.sstrs]; exact hl
  · rw [r.dbls]; exact hl
  · rw [r.ints]; exact hl

theorem SInv.refOnly (hI : SInv C h F) (r : RefOnly h h') (hl : ∀ p w, Held h F' p w → LiveS h w)
    (ho : ∀ p q w, Owned w → Held h F' p w → Held h F' q w → p = q)
    (hc : ∀ o s', h'.lstrs o = some s' → IsCount (fun p => Held h F' p (encodeLongstr o)) s'.refc) : SInv C h' F' where
  live p w hp := r.live (hl p w ((r.held F' p w).1 hp))
  own p q w hw hp hq := ho p q w hw ((r.held F' p w).1 hp) ((r.held F' q w).1 hq)
  refc o s' hs := (hc o s' hs).congr (fun p => r.held F' p _)
  ext o s' hs := by
    obtain ⟨s, g1, g2, g3, g4, g5⟩ := r.symm.get hs
    rw [← g4]; exact r.extraOK (hI.ext o s g1)
  layout o s' hs := by
    obtain ⟨s, g1, g2, g3, g4, g5⟩ := r.symm.get hs
    obtain ⟨d, t, ht, he⟩ := hI.layout o s g1
    refine ⟨d, t, ht, ?_⟩
    obtain ⟨i, rc, ch, ex, dd⟩ := s
    obtain ⟨i', rc', ch', ex', dd'⟩ := s'
    simp only at g2 g3 g4 g5
    subst g2 g3 g4 g5
    simp only [newLong, LStr.mk.injEq, true_and] at he ⊢
    exact he
  al o s' hs := by
    obtain ⟨s, g1, _⟩ := r.symm.get hs
    exact hI.al o s g1
  sstr o b hb := hI.sstr o b (by rw [← r.sstrs]; exact hb)
  hash := hI.hash.congr r.key r.lnext r.hash r.hlen
  full := full_congr hI.full r.key r.lnext r.hash r.hlen

theorem incRef_eq {w : Word} {s : LStr} (hw : isLongstr w = true) (hs : h.lstrs (decodeLongstr w) = some s) :
    incRef h w = some { h with lstrs := upd h.lstrs (decodeLongstr w) (some { s with refc := s.refc + 1 }) } := by
  rw [incRef, if_pos hw, hs]

theorem refOnly_upd {o : Word} {s : LStr} {n : Int} (hs : h.lstrs o = some s) :
    RefOnly h { h with lstrs := upd h.lstrs o (some { s with refc := n }) } :=
  ⟨rfl, rfl, rfl, rfl, rfl, rfl, rfl, fun x => by
    by_cases hx : x = o
    · subst hx; simp only [upd_self, hs]; rfl
    · simp only [upd_ne _ _ hx]⟩

/-- Place `p` may be overwritten without losing a count. -/
def Plain (F : Pos → Option Word) (p : Pos) : Prop := ∀ x, F p = some x → kind x = .imm ∨ kind x = .rcd

theorem kind_lstr_enc {o : Word} (ha : Aligned o) : kind (encodeLongstr o) = .lstr := isPtr_lstr (lstr_is ha)

theorem held_setF {p : Pos} {w : Option Word} (hp : isExt p = false) (q : Pos) (x : Word) :
    Held h (setF F p w) q x ↔ (if q = p then w = some x else Held h F q x) := by
  by_cases hq : q = p
  · subst hq; rw [held_of_not_ext hp]; simp [setF]
  · cases q <;> simp [Held, setF, hq]

theorem Plain.not_held {p : Pos} (hF : Plain F p) (hp : isExt p = false) {x : Word} (hx : kind x ≠ .imm) (hx' : kind x ≠ .rcd) :
    ¬ Held h F p x := by
  rw [held_of_not_ext hp]
  intro e
  rcases hF x e with k | k <;> contradiction

/-- Taking hold of a value. -/
theorem SInv.hold (hI : SInv C h F) {p : Pos} {w : Word} (hp : isExt p = false) (hF : Plain F p) (hl : LiveS h w)
    (ho : Owned w → ∀ q, ¬ Held h F q w) :
    ∃ h', incRef h w = some h' ∧ RefOnly h h' ∧ SInv C h' (setF F p (some w)) := by
  have hlive : ∀ q x, Held h (setF F p (some w)) q x → LiveS h x := by
    intro q x hq
    rw [held_setF hp] at hq
    split_ifs at hq
    · cases hq; exact hl
    · exact hI.live q x hq
  have hown : ∀ a b x, Owned x → Held h (setF F p (some w)) a x → Held h (setF F p (some w)) b x → a = b := by
    intro a b x hx ha hb
    rw [held_setF hp] at ha hb
    split_ifs at ha hb with c d d
    · rw [c, d]
    · cases ha; exact absurd hb (ho hx b)
    · cases hb; exact absurd ha (ho hx a)
    · exact hI.own a b x hx ha hb
  by_cases hw : isLongstr w = true
  · have hl' := hl
    rw [LiveS, isPtr_lstr hw] at hl'
    obtain ⟨s, hs⟩ := hl'
    refine ⟨_, incRef_eq hw hs, refOnly_upd hs, hI.refOnly (refOnly_upd hs) hlive hown ?_⟩
    intro o s' hs'
    by_cases hox : o = decodeLongstr w
    · subst hox
      simp only [upd_self, Option.some.injEq] at hs'
      subst hs'
      have hc := hI.refc _ s hs
      rw [lstr_enc_dec hw] at hc ⊢
      refine hc.add (a := p) (hF.not_held hp (by rw [isPtr_lstr hw]; simp) (by rw [isPtr_lstr hw]; simp)) ?_
      intro q
      rw [held_setF hp]
      by_cases hq : q = p
      · simp [hq]
      · simp [hq]
    · simp only [upd_ne _ _ hox] at hs'
      have hne : encodeLongstr o ≠ w := by
        intro e; apply hox; rw [← e, lstr_dec_enc (hI.al o s' hs')]
      refine (hI.refc o s' hs').congr ?_
      intro q
      rw [held_setF hp]
      by_cases hq : q = p
      · subst hq
        have hk := kind_lstr_enc (hI.al o s' hs')
        have := hF.not_held (h := h) hp (x := encodeLongstr o) (by rw [hk]; simp) (by rw [hk]; simp)
        simp only [if_true, this, iff_false, Option.some.injEq]
        exact fun e => hne e.symm
      · simp [hq]
  · refine ⟨h, by rw [incRef, if_neg hw], RefOnly.refl h, hI.refOnly (RefOnly.refl h) hlive hown ?_⟩
    intro o s' hs'
    refine (hI.refc o s' hs').congr ?_
    intro q
    rw [held_setF hp]
    by_cases hq : q = p
    · subst hq
      have hk := kind_lstr_enc (hI.al o s' hs')
      have := hF.not_held (h := h) hp (x := encodeLongstr o) (by rw [hk]; simp) (by rw [hk]; simp)
      simp only [if_true, this, iff_false, Option.some.injEq]
      intro e
      subst e
      exact hw (lstr_is (hI.al o s' hs'))
    · simp [hq]

/-- Only words that refer to strings, doubles and integers matter. -/
theorem SInv.congrF (hI : SInv C h F) (he : ∀ p x, kind x ≠ .imm → kind x ≠ .rcd → (F' p = some x ↔ F p = some x)) : SInv C h F' := by
  have hh : ∀ p x, kind x ≠ .imm → kind x ≠ .rcd → (Held h F' p x ↔ Held h F p x) := by
    intro p x h1 h2
    cases p <;> simp only [Held]
    · exact he _ x h1 h2
    · exact he _ x h1 h2
  refine hI.refOnly (RefOnly.refl h) ?_ ?_ ?_
  · intro p w hp
    by_cases h1 : kind w = .imm
    · simp [LiveS, h1]
    by_cases h2 : kind w = .rcd
    · simp [LiveS, h2]
    exact hI.live p w ((hh p w h1 h2).1 hp)
  · intro p q w hw a b
    have h1 : kind w ≠ .imm := by rcases hw with k | k | k <;> rw [k] <;> simp
    have h2 : kind w ≠ .rcd := by rcases hw with k | k | k <;> rw [k] <;> simp
    exact hI.own p q w hw ((hh p w h1 h2).1 a) ((hh q w h1 h2).1 b)
  · intro o s hs
    have hk := kind_lstr_enc (hI.al o s hs)
    exact (hI.refc o s hs).congr (fun p => hh p _ (by rw [hk]; simp) (by rw [hk]; simp))

/-- Moving a value from one place to another. -/
theorem SInv.move (hI : SInv C h F) {p q : Pos} {w : Word} (hp : isExt p = false) (hq : isExt q = false) (hpq : p ≠ q)
    (hw : F p = some w) (hF : Plain F q) : SInv C h (setF (setF F p none) q (some w)) := by
  have hh : ∀ a x, Held h (setF (setF F p none) q (some w)) a x ↔ (if a = q then w = x else a ≠ p ∧ Held h F a x) := by
    intro a x
    rw [held_setF hq]
    split_ifs with c
    · simp
    · rw [held_setF hp]; split_ifs with d <;> simp [d]
  refine hI.refOnly (RefOnly.refl h) ?_ ?_ ?_
  · intro a x ha
    rw [hh] at ha
    split_ifs at ha
    · exact hI.live p x (by rw [held_of_not_ext hp, hw, ha])
    · exact hI.live a x ha.2
  · intro a b x hx ha hb
    rw [hh] at ha hb
    have hpx : w = x → Held h F p x := fun e => by rw [held_of_not_ext hp, hw, e]
    split_ifs at ha hb with c d d
    · rw [c, d]
    · exact absurd (hI.own _ _ x hx hb.2 (hpx ha)) hb.1
    · exact absurd (hI.own _ _ x hx ha.2 (hpx hb)) ha.1
    · exact hI.own a b x hx ha.2 hb.2
  · intro o s hs
    have hk := kind_lstr_enc (hI.al o s hs)
    refine (hI.refc o s hs).move (a := p) (b := q) (hF.not_held hq (by rw [hk]; simp) (by rw [hk]; simp)) ?_ ?_ ?_
    · rw [hh, if_neg hpq]; simp
    · rw [hh, if_pos rfl, held_of_not_ext hp, hw]; simp
    · intro a h1 h2
      rw [hh, if_neg h2]; simp [h1]

/-- A change of short strings, doubles and integers only. -/
theorem SInv.cells (hI : SInv C h F) (e1 : h'.lstrs = h.lstrs) (e2 : h'.hash = h.hash) (e3 : h'.hlen = h.hlen)
    (hs : ∀ o b, h'.sstrs o = some b → 0#8 ∈ b)
    (hl : ∀ p w, Held h F' p w → LiveS h' w) (hF : ∀ p w, Held h F' p w → Held h F p w)
    (hF' : ∀ p w, kind w = .lstr → Held h F p w → Held h F' p w)
    (hx : ∀ o s, h.lstrs o = some s → isShortstr s.extra = true → h'.sstrs (decodeShortstr s.extra) = h.sstrs (decodeShortstr s.extra)) :
    SInv C h' F' := by
  have hh : ∀ p w, Held h' F' p w ↔ Held h F' p w := by
    intro p w; cases p <;> simp only [Held, e1]
  have hk : ∀ o, keyOf h' o = keyOf h o := by
    intro o
    cases ho : h.lstrs o with
    | none => simp [keyOf, ho, e1]
    | some s =>
      refine keyOf_congr ho (by rw [e1]; exact ho) rfl rfl rfl (Or.inr (decodeBytes_congr (hx o s ho) (fun _ => by rw [e1])))
  have hn : lnext h' = lnext h := by funext w; simp [lnext, e1]
  exact {
    live := fun p w hp => hl p w ((hh p w).1 hp)
    own := fun p q w hw a b => hI.own p q w hw (hF _ _ ((hh p w).1 a)) (hF _ _ ((hh q w).1 b))
    refc := fun o s ho => by
      rw [e1] at ho
      refine (hI.refc o s ho).congr (fun p => (hh p _).trans ⟨hF p _, hF' p _ (kind_lstr_enc (hI.al o s ho))⟩)
    ext := fun o s ho => by
      rw [e1] at ho
      rcases hI.ext o s ho with a | a | a
      · exact Or.inl a
      · exact Or.inr (Or.inl a)
      · exact Or.inr (Or.inr (by rw [e1]; exact a))
    layout := fun o s ho => hI.layout o s (by rw [← e1]; exact ho)
    al := fun o s ho => hI.al o s (by rw [← e1]; exact ho)
    sstr := hs
    hash := hI.hash.congr hk hn e2 e3
    full := full_congr hI.full hk hn e2 e3 }

end WG.Recs
