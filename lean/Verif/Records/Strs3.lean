import Verif.Records.Strs2
/-! # The string area: removing a string -/
namespace WG.Recs

variable {C : Prop} {h h' : Heap} {F F' : Pos → Option Word}

def noChain (s : LStr) : LStr := { s with chain := 0#64 }

/-- Only chain words and the hash array differ. -/
structure ChainOnly (h h' : Heap) : Prop where
  recs : h'.recs = h.recs
  cells : h'.cells = h.cells
  sstrs : h'.sstrs = h.sstrs
  dbls : h'.dbls = h.dbls
  ints : h'.ints = h.ints
  hlen : h'.hlen = h.hlen
  lstrs : ∀ o, (h'.lstrs o).map noChain = (h.lstrs o).map noChain

theorem ChainOnly.refl (h : Heap) : ChainOnly h h := ⟨rfl, rfl, rfl, rfl, rfl, rfl, fun _ => rfl⟩

theorem ChainOnly.symm (r : ChainOnly h h') : ChainOnly h' h :=
  ⟨r.recs.symm, r.cells.symm, r.sstrs.symm, r.dbls.symm, r.ints.symm, r.hlen.symm, fun o => (r.lstrs o).symm⟩

theorem ChainOnly.get (r : ChainOnly h h') {o : Word} {s : LStr} (hs : h.lstrs o = some s) :
    ∃ s', h'.lstrs o = some s' ∧ s'.info = s.info ∧ s'.refc = s.refc ∧ s'.extra = s.extra ∧ s'.data = s.data := by
  have := r.lstrs o
  rw [hs] at this
  cases hh : h'.lstrs o with
  | none => rw [hh] at this; simp at this
  | some s' =>
    rw [hh] at this
    simp only [Option.map_some, Option.some.injEq, noChain, LStr.mk.injEq] at this
    exact ⟨s', rfl, this.1, this.2.1, this.2.2.2.1, this.2.2.2.2⟩

theorem ChainOnly.none_iff (r : ChainOnly h h') (o : Word) : h'.lstrs o = none ↔ h.lstrs o = none := by
  have := r.lstrs o
  cases hh : h.lstrs o <;> cases hh' : h'.lstrs o <;> rw [hh, hh'] at this <;> simp_all

theorem unlinkStr_walk (h : Heap) (b : Nat) (w : Word) (s : LStr) (hs : h.lstrs (decodeLongstr w) = some s) :
    ∀ (pre post : List Word) (n : Nat) (loc : Option Word) (cur : Word), w ∉ pre → Chain (lnext h) cur (pre ++ w :: post) →
      pre.length < n → unlinkStr h b w n loc cur = some (h.setChain b (pre.getLast?.or loc) s.chain) := by
  intro pre
  induction pre with
  | nil =>
    intro post n loc cur _ hc hn
    obtain ⟨k, rfl⟩ : ∃ k, n = k + 1 := ⟨n - 1, by simp at hn; omega⟩
    obtain ⟨rfl, h0, _⟩ := hc
    rw [unlinkStr, if_neg h0, hs]
    simp
  | cons a pre ih =>
    intro post n loc cur hp hc hn
    obtain ⟨k, rfl⟩ : ∃ k, n = k + 1 := ⟨n - 1, by simp at hn; omega⟩
    obtain ⟨rfl, h0, m, hm, hc2⟩ := hc
    cases hcell : h.lstrs (decodeLongstr cur) with
    | none => simp [lnext, hcell] at hm
    | some ce =>
      simp only [lnext, hcell, Option.map_some, Option.some.injEq] at hm
      have hne : cur ≠ w := by rintro rfl; simp at hp
      rw [unlinkStr, if_neg h0, hcell]
      simp only [hne, if_false]
      rw [hm, ih post k (some cur) m (by simp at hp; tauto) hc2 (by simp at hn; omega)]
      have : (pre.getLast?.or (some cur)) = ((cur :: pre).getLast?.or loc) := by
        cases pre <;> simp [List.getLast?_cons]
      rw [this]

theorem unlinkStr_notin (h : Heap) (b : Nat) (w : Word) :
    ∀ (l : List Word) (n : Nat) (loc : Option Word) (cur : Word), w ∉ l → Chain (lnext h) cur l → l.length < n →
      unlinkStr h b w n loc cur = some h := by
  intro l
  induction l with
  | nil =>
    intro n loc cur _ hc hn
    obtain ⟨k, rfl⟩ : ∃ k, n = k + 1 := ⟨n - 1, by simp at hn; omega⟩
    simp only [Chain, Seg] at hc
    rw [unlinkStr, if_pos hc]
  | cons a pre ih =>
    intro n loc cur hp hc hn
    obtain ⟨k, rfl⟩ : ∃ k, n = k + 1 := ⟨n - 1, by simp at hn; omega⟩
    obtain ⟨rfl, h0, m, hm, hc2⟩ := hc
    cases hcell : h.lstrs (decodeLongstr cur) with
    | none => simp [lnext, hcell] at hm
    | some ce =>
      simp only [lnext, hcell, Option.map_some, Option.some.injEq] at hm
      have hne : cur ≠ w := by rintro rfl; simp at hp
      rw [unlinkStr, if_neg h0, hcell]
      simp only [hne, if_false]
      rw [hm]
      exact ih k (some cur) m (by simp at hp; tauto) hc2 (by simp at hn; omega)

theorem setChain_only (h : Heap) (b : Nat) (loc : Option Word) (w : Word) : ChainOnly h (h.setChain b loc w) := by
  cases loc with
  | none => exact ⟨rfl, rfl, rfl, rfl, rfl, rfl, fun _ => rfl⟩
  | some x =>
    refine ⟨rfl, rfl, rfl, rfl, rfl, rfl, fun o => ?_⟩
    by_cases ho : o = decodeLongstr x
    · subst ho
      simp only [Heap.setChain, upd_self]
      cases h.lstrs (decodeLongstr x) <;> simp [noChain]
    · simp only [Heap.setChain, upd_ne _ _ ho]

theorem decodeLongstr_inj {x y : Word} (hx : isLongstr x = true) (hy : isLongstr y = true) (h : decodeLongstr x = decodeLongstr y) : x = y := by
  rw [← lstr_enc_dec hx, ← lstr_enc_dec hy, h]

/-- Taking a string out of its chain. -/
theorem removeStrhash_ok {w : Word} {s : LStr} {k : Key} (hw : isLongstr w = true) (hs : h.lstrs (decodeLongstr w) = some s)
    (hk : keyOf h (decodeLongstr w) = some k) {hc : Nat → List Word} (h1 : ∀ b, Chain (lnext h) (h.hash b) (hc b))
    (h2 : ∀ b w, w ∈ hc b → isLongstr w = true ∧ ∃ k, keyOf h (decodeLongstr w) = some k ∧ hashK h.hlen k = b) :
    ∃ h', removeStrhash h w = some h' ∧ ChainOnly h h' ∧ ∀ b, Chain (lnext h') (h'.hash b) ((hc b).erase w) := by
  have hother : ∀ b, b ≠ hashK h.hlen k → w ∉ hc b := by
    intro b hb hm
    obtain ⟨_, k', hk', e⟩ := h2 b w hm
    rw [hk] at hk'; cases hk'
    exact hb e.symm
  have heq : removeStrhash h w = unlinkStr h (hashK h.hlen k) w walkFuel none (h.hash (hashK h.hlen k)) := by
    simp only [keyOf, hs, Option.bind_some] at hk
    rw [removeStrhash, hs]
    cases he : extraOf h s with
    | none => rw [he] at hk; simp at hk
    | some e =>
      rw [he] at hk
      simp only [Option.map_some, Option.some.injEq] at hk
      subst hk
      simp only [he, hashK]
  rw [heq]
  have hcb := h1 (hashK h.hlen k)
  by_cases hm : w ∈ hc (hashK h.hlen k)
  · obtain ⟨pre, post, hsplit⟩ := List.append_of_mem hm
    have hnd := hcb.nodup
    rw [hsplit] at hcb hnd
    have hpre : w ∉ pre := by
      intro hx
      simp only [List.nodup_append, List.mem_cons] at hnd
      exact hnd.2.2 _ hx _ (Or.inl rfl) rfl
    have hlen : pre.length < walkFuel := by
      have := hcb.length_lt; simp at this; omega
    have herase : (hc (hashK h.hlen k)).erase w = pre ++ post := by
      rw [hsplit, List.erase_append_right _ hpre, List.erase_cons_head]
    rw [unlinkStr_walk h (hashK h.hlen k) w s hs pre post walkFuel none _ hpre hcb hlen]
    refine ⟨_, rfl, setChain_only _ _ _ _, ?_⟩
    have hnw : lnext h w = some s.chain := by simp [lnext, hs]
    intro b
    rcases List.eq_nil_or_concat pre with rfl | ⟨pre', y, rfl⟩
    · simp only [List.getLast?_nil, Option.none_or, Heap.setChain]
      have hn : lnext { h with hash := fun i => if i = hashK h.hlen k then s.chain else h.hash i } = lnext h := rfl
      rw [hn]
      by_cases hb : b = hashK h.hlen k
      · subst hb
        rw [herase]
        simp only [if_true, List.nil_append]
        exact Chain.remove_head (by simpa using hcb) hnw (fun _ _ => rfl)
      · simp only [hb, if_false]
        rw [List.erase_of_not_mem (hother b hb)]
        exact h1 b
    · have hy : isLongstr y = true := (h2 _ y (by rw [hsplit]; simp)).1
      have hyw : y ≠ w := by rintro rfl; simp at hpre
      have hn : ∀ z, isLongstr z = true → z ≠ y →
          lnext (h.setChain (hashK h.hlen k) (some y) s.chain) z = lnext h z := by
        intro z hz hzy
        have : decodeLongstr z ≠ decodeLongstr y := fun e => hzy (decodeLongstr_inj hz hy e)
        simp [lnext, Heap.setChain, upd_ne _ _ this]
      have hny : lnext (h.setChain (hashK h.hlen k) (some y) s.chain) y = some s.chain := by
        obtain ⟨n, hn'⟩ := Seg.mem_some hcb y (by simp)
        simp only [lnext, Option.map_eq_some_iff] at hn'
        obtain ⟨sy, e, _⟩ := hn'
        simp [lnext, Heap.setChain, upd_self, e]
      have hl : (((pre'.concat y).getLast?).or none) = some y := by simp
      rw [hl]
      have hhash : (h.setChain (hashK h.hlen k) (some y) s.chain).hash = h.hash := rfl
      rw [hhash]
      by_cases hb : b = hashK h.hlen k
      · subst hb
        rw [herase]
        rw [List.concat_eq_append] at hcb ⊢
        rw [List.append_assoc, List.singleton_append] at hcb ⊢
        have := Chain.remove_mid (next' := fun z => if z = y then some s.chain else lnext h z) hcb hnw (by simp) (by
          intro z hz _; simp [hz])
        refine Seg.congr ?_ this
        intro z hz
        have hz' : z ∈ hc (hashK h.hlen k) := by
          rw [hsplit]
          simp only [List.concat_eq_append, List.mem_append, List.mem_cons] at hz ⊢
          tauto
        by_cases hzy : z = y
        · subst hzy; simp [hny]
        · simp only [hzy, if_false]; exact (hn z (h2 _ z hz').1 hzy).symm
      · rw [List.erase_of_not_mem (hother b hb)]
        refine Seg.congr ?_ (h1 b)
        intro z hz
        refine (hn z (h2 _ z hz).1 ?_).symm
        rintro rfl
        obtain ⟨_, k1, e1, e2⟩ := h2 b z hz
        obtain ⟨_, k3, e3, e4⟩ := h2 (hashK h.hlen k) z (by rw [hsplit]; simp)
        rw [e1] at e3; cases e3
        exact hb (e2.symm.trans e4)
  · refine ⟨h, unlinkStr_notin h _ w _ walkFuel none _ hm hcb hcb.length_lt, ChainOnly.refl h, ?_⟩
    intro b
    rw [List.erase_of_not_mem]
    · exact h1 b
    · by_cases hb : b = hashK h.hlen k
      · rw [hb]; exact hm
      · exact hother b hb

/-- The heap without long string `o`. -/
def Heap.dropL (h : Heap) (o : Word) : Heap := { h with lstrs := upd h.lstrs o none }

/-- Nobody but `p` holds the value in place `p`. -/
def Sole (h : Heap) (F : Pos → Option Word) (p : Pos) (w : Word) : Prop := ∀ q, Held h F q w → q = p

/-- Deleting a string held by `p` only: its extra string word moves into a temporary variable. -/
theorem SInv.remove (hI : SInv C h F) {p : Pos} {w : Word} {s : LStr} {i : Nat} (hp : isExt p = false) (hFp : F p = some w)
    (hw : isLongstr w = true) (hs : h.lstrs (decodeLongstr w) = some s) (hsole : Sole h F p w)
    (hi : p ≠ .tmp i) (hFi : F (.tmp i) = none) :
    ∃ h1, removeStrhash h w = some h1 ∧ ChainOnly h h1 ∧
      SInv C (h1.dropL (decodeLongstr w)) (setF (setF F p none) (.tmp i) (some s.extra)) := by
  obtain ⟨hc, hc1, hc2⟩ := hI.hash
  have hkey : ∀ o s, h.lstrs o = some s → ∃ k, keyOf h o = some k := by
    intro o s hs
    simp only [keyOf, hs, Option.bind_some]
    by_cases h0 : s.extra = 0#64
    · simp [extraOf, h0]
    · have hl := hI.live (.ext o) s.extra ⟨s, hs, rfl⟩
      rcases hI.ext o s hs with he | he | ⟨he, e, g1, g2, g3⟩
      · exact absurd he h0
      · have hk : kind s.extra = .sstr := by rcases kind_cases s.extra with k | k | k | k | k | k <;> simp_all
        rw [LiveS, hk] at hl
        obtain ⟨b, hb⟩ := hl
        have := hI.sstr _ b hb
        simp [extraOf, h0, decodeStr, decodeBytes, he, hb, cstr, this]
      · have hns : isShortstr s.extra = false := by rcases kind_cases s.extra with k | k | k | k | k | k <;> simp_all
        simp [extraOf, h0, decodeStr, decodeBytes, he, g1, cstr, g3, hns]
  obtain ⟨k, hk⟩ := hkey _ s hs
  obtain ⟨h1, he, ho, hch⟩ := removeStrhash_ok hw hs hk hc1 hc2
  refine ⟨h1, he, ho, ?_⟩
  -- held places in the new heap
  have hh : ∀ a x, Held (h1.dropL (decodeLongstr w)) (setF (setF F p none) (.tmp i) (some s.extra)) a x ↔
      (if a = .tmp i then s.extra = x else a ≠ p ∧ a ≠ .ext (decodeLongstr w) ∧ Held h F a x) := by
    intro a x
    rw [held_setF (by rfl)]
    split_ifs with c
    · simp
    · rw [held_setF hp]
      split_ifs with d
      · simp [d]
      · cases a with
        | fld r j => simp [Held, d]
        | tmp j => simp [Held, d]
        | ext o =>
          simp only [Held, d, ne_eq, not_false_eq_true, true_and, Pos.ext.injEq, Heap.dropL]
          by_cases hod : o = decodeLongstr w
          · subst hod; simp [upd_self]
          · simp only [upd_ne _ _ hod, hod, not_false_eq_true, true_and]
            constructor
            · rintro ⟨y, g1, g2⟩
              obtain ⟨y', e1, _, _, e4, _⟩ := ho.symm.get g1
              exact ⟨y', e1, by rw [e4, g2]⟩
            · rintro ⟨y, g1, g2⟩
              obtain ⟨y', e1, _, _, e4, _⟩ := ho.get g1
              exact ⟨y', e1, by rw [e4, g2]⟩
  have hback : ∀ a x, Held (h1.dropL (decodeLongstr w)) (setF (setF F p none) (.tmp i) (some s.extra)) a x →
      ∃ b, Held h F b x ∧ b ≠ p ∧ (a = .tmp i → b = .ext (decodeLongstr w)) ∧ (a ≠ .tmp i → b = a ∧ a ≠ .ext (decodeLongstr w)) := by
    intro a x ha
    rw [hh] at ha
    split_ifs at ha with c
    · exact ⟨.ext (decodeLongstr w), ⟨s, hs, ha⟩, by rintro rfl; simp [isExt] at hp, fun _ => rfl, fun hn => absurd c hn⟩
    · exact ⟨a, ha.2.2, ha.1, fun hn => absurd hn c, fun _ => ⟨rfl, ha.2.1⟩⟩
  have hnw : ∀ b x, Held h F b x → b ≠ p → x ≠ w := by
    rintro b x hb hbp rfl
    exact hbp (hsole b hb)
  have hlget : ∀ o s', (h1.dropL (decodeLongstr w)).lstrs o = some s' → o ≠ decodeLongstr w ∧ ∃ s0, h.lstrs o = some s0 ∧
      s'.info = s0.info ∧ s'.refc = s0.refc ∧ s'.extra = s0.extra ∧ s'.data = s0.data := by
    intro o s' hs'
    by_cases hod : o = decodeLongstr w
    · subst hod; simp [Heap.dropL, upd_self] at hs'
    · simp only [Heap.dropL, upd_ne _ _ hod] at hs'
      obtain ⟨s0, e1, e2, e3, e4, e5⟩ := ho.symm.get hs'
      exact ⟨hod, s0, e1, e2.symm, e3.symm, e4.symm, e5.symm⟩
  have hlive : ∀ x, LiveS h x → x ≠ w → LiveS (h1.dropL (decodeLongstr w)) x := by
    intro x hl hx
    unfold LiveS at *
    rcases kind_cases x with c | c | c | c | c | c <;> rw [c.1] at hl ⊢ <;> simp only at hl ⊢
    · obtain ⟨s0, hs0⟩ := hl
      obtain ⟨s1, e1, _⟩ := ho.get hs0
      have : decodeLongstr x ≠ decodeLongstr w := fun e => hx (decodeLongstr_inj c.2.2.2.2.1 hw e)
      exact ⟨s1, by simp only [Heap.dropL, upd_ne _ _ this]; exact e1⟩
    · simpa [Heap.dropL, ho.sstrs] using hl
    · simpa [Heap.dropL, ho.dbls] using hl
    · simpa [Heap.dropL, ho.ints] using hl
  have hkeyeq : ∀ o, o ≠ decodeLongstr w → keyOf (h1.dropL (decodeLongstr w)) o = keyOf h o := by
    intro o hod
    cases hso : h.lstrs o with
    | none => simp [keyOf, hso, Heap.dropL, upd_ne _ _ hod, (ho.none_iff o).2 hso]
    | some s0 =>
      obtain ⟨s1, e1, e2, e3, e4, e5⟩ := ho.get hso
      refine keyOf_congr hso (by simp only [Heap.dropL, upd_ne _ _ hod]; exact e1) e2 e5 e4 ?_
      by_cases h0 : s0.extra = 0#64
      · exact Or.inl h0
      right
      refine decodeBytes_congr (fun _ => by simp [Heap.dropL, ho.sstrs]) (fun hx => ?_)
      have hne : s0.extra ≠ w := hnw (.ext o) s0.extra ⟨s0, hso, rfl⟩ (by rintro rfl; simp [isExt] at hp)
      have : decodeLongstr s0.extra ≠ decodeLongstr w := fun e => hne (decodeLongstr_inj hx hw e)
      simp only [Heap.dropL, upd_ne _ _ this]
      cases hd : h.lstrs (decodeLongstr s0.extra) with
      | none => rw [(ho.none_iff _).2 hd]
      | some s2 =>
        obtain ⟨s3, g1, g2, g3, g4, g5⟩ := ho.get hd
        rw [g1]; simp [g5]
  have hkeyd : keyOf (h1.dropL (decodeLongstr w)) (decodeLongstr w) = none := by simp [keyOf, Heap.dropL, upd_self]
  have hmem : ∀ b z, z ∈ (hc b).erase w → z ≠ w ∧ z ∈ hc b := by
    intro b z hz
    exact (((hc1 b).nodup).mem_erase_iff).1 hz
  have hchain : ∀ b, Chain (lnext (h1.dropL (decodeLongstr w))) (h1.hash b) ((hc b).erase w) := by
    intro b
    refine Seg.congr ?_ (hch b)
    intro z hz
    obtain ⟨z1, z2⟩ := hmem b z hz
    have : decodeLongstr z ≠ decodeLongstr w := fun e => z1 (decodeLongstr_inj (hc2 b z z2).1 hw e)
    simp [lnext, Heap.dropL, upd_ne _ _ this]
  have hhl : (h1.dropL (decodeLongstr w)).hlen = h.hlen := ho.hlen
  exact {
    live := fun a x ha => by
      obtain ⟨b, g1, g2, _⟩ := hback a x ha
      exact hlive x (hI.live b x g1) (hnw b x g1 g2)
    own := fun a a' x hx ha ha' => by
      obtain ⟨b, g1, g2, g3, g4⟩ := hback a x ha
      obtain ⟨b', g1', g2', g3', g4'⟩ := hback a' x ha'
      have hbb := hI.own b b' x hx g1 g1'
      by_cases c : a = .tmp i <;> by_cases c' : a' = .tmp i
      · rw [c, c']
      · exact absurd ((g4' c').1.symm.trans (hbb.symm.trans (g3 c))) (g4' c').2
      · exact absurd ((g4 c).1.symm.trans (hbb.trans (g3' c'))) (g4 c).2
      · rw [← (g4 c).1, ← (g4' c').1, hbb]
    refc := fun o s' hs' => by
      obtain ⟨hod, s0, e1, e2, e3, e4, e5⟩ := hlget o s' hs'
      rw [e3]
      have hne : encodeLongstr o ≠ w := by
        intro e; apply hod; rw [← e, lstr_dec_enc (hI.al o s0 e1)]
      refine (hI.refc o s0 e1).move (a := .ext (decodeLongstr w)) (b := .tmp i) ?_ ?_ ?_ ?_
      · simp [Held, hFi]
      · rw [hh]; simp
      · rw [hh]; simp only [if_true, Held, hs, Option.some.injEq, exists_eq_left']
      · intro a h1 h2
        rw [hh, if_neg h2]
        constructor
        · exact fun hx => hx.2.2
        · refine fun hx => ⟨?_, h1, hx⟩
          rintro rfl
          rw [held_of_not_ext hp, hFp] at hx
          cases hx; exact hne rfl
    ext := fun o s' hs' => by
      obtain ⟨hod, s0, e1, e2, e3, e4, e5⟩ := hlget o s' hs'
      rw [e4]
      rcases hI.ext o s0 e1 with he | he | ⟨he, e, g1, g2, g3⟩
      · exact Or.inl he
      · exact Or.inr (Or.inl he)
      · refine Or.inr (Or.inr ⟨he, ?_⟩)
        have hne : s0.extra ≠ w := hnw (.ext o) s0.extra ⟨s0, e1, rfl⟩ (by rintro rfl; simp [isExt] at hp)
        have : decodeLongstr s0.extra ≠ decodeLongstr w := fun e => hne (decodeLongstr_inj he hw e)
        obtain ⟨e', q1, q2, q3, q4, q5⟩ := ho.get g1
        exact ⟨e', by simp only [Heap.dropL, upd_ne _ _ this]; exact q1, by rw [q4, g2], by rw [q5]; exact g3⟩
    layout := fun o s' hs' => by
      obtain ⟨hod, s0, e1, e2, e3, e4, e5⟩ := hlget o s' hs'
      obtain ⟨d, t, ht, he⟩ := hI.layout o s0 e1
      refine ⟨d, t, ht, ?_⟩
      obtain ⟨i1, rc1, ch1, ex1, dd1⟩ := s0
      obtain ⟨i2, rc2, ch2, ex2, dd2⟩ := s'
      simp only at e2 e3 e4 e5
      subst e2 e3 e4 e5
      simp only [newLong, LStr.mk.injEq, true_and] at he ⊢
      exact he
    al := fun o s' hs' => by
      obtain ⟨hod, s0, e1, _⟩ := hlget o s' hs'
      exact hI.al o s0 e1
    sstr := fun o b hb => hI.sstr o b (by simpa [Heap.dropL, ho.sstrs] using hb)
    hash := by
      refine ⟨fun b => (hc b).erase w, hchain, ?_⟩
      intro b z hz
      obtain ⟨z1, z2⟩ := hmem b z hz
      obtain ⟨g1, k', g2, g3⟩ := hc2 b z z2
      refine ⟨g1, k', ?_, by rw [hhl]; exact g3⟩
      rw [hkeyeq _ (fun e => z1 (decodeLongstr_inj g1 hw e))]
      exact g2
    full := fun c => by
      obtain ⟨f1, f2⟩ := hI.full c
      refine ⟨?_, ?_⟩
      · intro o k' l hk' hl
        by_cases hod : o = decodeLongstr w
        · subst hod; rw [hkeyd] at hk'; cases hk'
        · rw [hkeyeq o hod] at hk'
          rw [hhl] at hl
          have hl2 := Chain.unique hl (hchain _)
          rw [hl2]
          refine ((hc1 _).nodup.mem_erase_iff).2 ⟨?_, f1 o k' _ hk' (hc1 _)⟩
          intro e
          cases hso : h.lstrs o with
          | none => simp [keyOf, hso] at hk'
          | some s0 => apply hod; rw [← e, lstr_dec_enc (hI.al o s0 hso)]
      · intro o o' k' g1 g2
        by_cases hod : o = decodeLongstr w
        · subst hod; rw [hkeyd] at g1; cases g1
        by_cases hod' : o' = decodeLongstr w
        · subst hod'; rw [hkeyd] at g2; cases g2
        rw [hkeyeq o hod] at g1; rw [hkeyeq o' hod'] at g2
        exact f2 o o' k' g1 g2 }

end WG.Recs
