import Verif.IndexMaint.Step3
import Mathlib.Data.List.Range
/-! # Creation of templates and indexes -/
namespace WG.Recs
open WG.TTree

variable {C : Prop} {h h' : Heap} {D : Word → Prop}

/-- Values for the fields of a new record: storable and orderable, and those that are not shared are not given twice. -/
def Vals (h : Heap) (vs : List Word) : Prop := (∀ v ∈ vs, SOK h v ∧ Good h v) ∧ vs.Pairwise (fun a b => Owned a → a ≠ b)

theorem filter_range' (i n : Nat) : (List.range' i (n + 1)).filter (· ≠ i) = List.range' (i + 1) n := by
  rw [List.range'_succ]
  simp only [ne_eq, decide_not, List.filter_cons, decide_true, Bool.not_true, Bool.false_eq_true, if_false]
  apply List.filter_eq_self.2
  intro a ha
  have := List.mem_range'_1.1 ha
  simp; omega

theorem setNewAll_ix {o : Word} : ∀ (t : List Word) (i : Nat) (done : List Word) {s : Db (List Idx)}, Inv C s.h → AllGood s.h → Cat s.h s.ix →
    Pend s.h s.ix o (List.range' i t.length) → St s.h s.ix (fun e q => Row s.h e.col e.mrec q ∧ Todo o (List.range' i t.length) e q) →
    (∃ ro, s.h.recs o = some ro ∧ ro.fields = done ++ List.replicate t.length 0#64) → done.length = i → Vals s.h t → (∀ v ∈ t, isRecVal v = false) →
    isRecVal o = true →
    ∃ s', setNewAll wgIx s o i t = some (s', 0) ∧ Inv C s'.h ∧ AllGood s'.h ∧ Cat s'.h s'.ix ∧ s'.ix.map Idx.key = s.ix.map Idx.key ∧
      Pend s'.h s'.ix o [] ∧ St s'.h s'.ix (fun e q => Row s'.h e.col e.mrec q) ∧ (∃ ro, s'.h.recs o = some ro ∧ ro.fields = done ++ t) ∧
      (∀ p, p ≠ o → (s.h.recs p = none → s'.h.recs p = none) ∧ ∀ rc, s.h.recs p = some rc → ∃ b, s'.h.recs p = some { rc with back := b }) ∧
      (∀ w, LiveS s.h w → LiveS s'.h w ∧ SameValue s.h s'.h w)
  | [], i, done, s, h1, h2, h3, h4, h5, h6, h7, h8, h9, h10 => by
    refine ⟨s, rfl, h1, h2, h3, rfl, h4, fun e he => (h5 e he).congr fun q => by simp [Todo], by simpa using h6,
      fun p _ => ⟨id, fun rc e => ⟨rc.back, e⟩⟩, fun w hw => ⟨hw, SameValue.refl _ _⟩⟩
  | v :: t, i, done, s, h1, h2, h3, h4, h5, h6, h7, h8, h9, h10 => by
    obtain ⟨hv, hpw⟩ := h8
    obtain ⟨hvt, hpt⟩ := List.pairwise_cons.1 hpw
    have hvr := h9 v (by simp)
    obtain ⟨s1, e1, g1, g2, g3, g4, g5, g6, g7, g8, g9, g10⟩ := setNew_ix h1 h2 h3 h4 h5 (i := i) (v := v) (cell := none) (by simp [List.mem_range'_1])
      (hv v (by simp)).1 (hv v (by simp)).2 (by rintro rfl; rw [hvr] at h10; cases h10) (by rw [hvr]; simp)
    simp only [List.length_cons, filter_range'] at g5 g6
    obtain ⟨ro, r1, r2⟩ := h6
    obtain ⟨b, r3⟩ := (g8 o).2 ro r1
    simp only [if_true] at r3
    have hfields : ro.fields.set i v = (done ++ [v]) ++ List.replicate t.length 0#64 := by
      rw [r2, ← h7]
      simp [List.replicate_succ]
    have hval : ∀ w, LiveS s.h w → LiveS s1.h w ∧ SameValue s.h s1.h w := fun w hw => ⟨g9 w hw, g7.value w hw (g9 w hw)⟩
    have hvals : Vals s1.h t := by
      refine ⟨fun w hw => ⟨⟨g9 w (hv w (by simp [hw])).1.live, ?_, ?_⟩, (hv w (by simp [hw])).2.congr (hval w (hv w (by simp [hw])).1.live).2⟩, hpt⟩
      · rw [h9 w (by simp [hw])]; simp
      · intro hown q hq
        have hl := (hv w (by simp [hw])).1.loose hown
        have hne : v ≠ w := by rintro rfl; exact hvt v hw hown rfl
        cases q with
        | tmp k => simp [Held, fldF] at hq
        | ext a =>
          obtain ⟨x, x1, x2⟩ := hq
          obtain ⟨s0, y1, y2⟩ := g10 a x x1
          exact hl (.ext a) ⟨s0, y1, y2.trans x2⟩
        | fld p c =>
          have hf : (view s1.h).field p c = some w := by
            simp only [Held, fldF] at hq
            simp only [Table.field, view]
            cases e : s1.h.recs p with
            | none => rw [e] at hq; cases hq
            | some rp => rw [e] at hq; exact hq
          by_cases hpc : p = o ∧ c = i
          · obtain ⟨rfl, rfl⟩ := hpc
            obtain ⟨rc, k1, k2⟩ := field_mem.1 hf
            rw [r3] at k1; cases k1
            simp only [hfields] at k2
            rw [List.append_assoc, List.getElem?_append_right (by omega), h7, Nat.sub_self] at k2
            simp at k2
            exact hne k2
          · rw [stored_field g8 p c hpc] at hf
            obtain ⟨rc, k1, k2⟩ := field_mem.1 hf
            exact hl (.fld p c) (by simp only [Held, fldF, k1]; exact k2)
    obtain ⟨s', e2, k1, k2, k3, k4, k5, k6, k7, k8, k9⟩ := setNewAll_ix t (i + 1) (done ++ [v]) g1 g2 g3 g5 g6 ⟨_, r3, hfields⟩ (by simp [h7]) hvals
      (fun w hw => h9 w (by simp [hw])) h10
    refine ⟨s', ?_, k1, k2, k3, k4.trans g4, k5, k6, by simpa using k7, fun p hp => ?_, fun w hw => ?_⟩
    · simp only [setNewAll, e1]
      rw [if_neg (by decide)]
      exact e2
    · refine ⟨fun e => (k8 p hp).1 ((g7.recs p hp).1 e), fun rc e => ?_⟩
      obtain ⟨b1, e3⟩ := (g7.recs p hp).2 rc e
      obtain ⟨b2, e4⟩ := (k8 p hp).2 _ e3
      exact ⟨b2, e4⟩
    · obtain ⟨a1, a2⟩ := hval w hw
      obtain ⟨a3, a4⟩ := k9 w a1
      exact ⟨a3, a2.trans a4⟩

/-! ### Marking a record as special -/

theorem mark_inv (hI : Inv C h) {o : Word} {ro : Rec} (hr : h.recs o = some ro) (b : Word) :
    Inv C { h with recs := upd h.recs o (some { ro with info := b }) } := by
  have hF : fldF { h with recs := upd h.recs o (some { ro with info := b }) } = fldF h := by
    funext p
    cases p with
    | tmp _ => rfl
    | ext _ => rfl
    | fld q i =>
      simp only [fldF]
      by_cases hq : q = o
      · subst hq; rw [upd_self, hr]; rfl
      · rw [upd_ne _ _ hq]
  have hget : ∀ p rp, upd h.recs o (some { ro with info := b }) p = some rp → ∃ r0, h.recs p = some r0 ∧ rp.fields = r0.fields ∧ rp.back = r0.back := by
    intro p rp hp
    by_cases hq : p = o
    · subst hq; rw [upd_self] at hp; cases hp; exact ⟨ro, hr, rfl, rfl⟩
    · rw [upd_ne _ _ hq] at hp; exact ⟨rp, hp, rfl, rfl⟩
  have hlive : ∀ p r0, h.recs p = some r0 → ∃ rp, upd h.recs o (some { ro with info := b }) p = some rp ∧ rp.fields = r0.fields := by
    intro p r0 hp
    by_cases hq : p = o
    · subst hq; rw [hr] at hp; cases hp; exact ⟨_, upd_self _ _ _, rfl⟩
    · exact ⟨r0, by rw [upd_ne _ _ hq]; exact hp, rfl⟩
  refine ⟨?_, ?_, ?_, ?_⟩
  · rw [hF]
    exact SameStr.sinv (h := h) (h' := { h with recs := upd h.recs o (some { ro with info := b }) }) ⟨rfl, rfl, rfl, rfl, rfl, rfl⟩ hI.str
  · refine hI.back.congr (fun c r' hc => ?_) rfl (fun p c r hc => ?_)
    · obtain ⟨r0, a1, a2, a3⟩ := hget c r' hc
      exact ⟨r0, a1, a3⟩
    · simp only [nref]
      by_cases hq : p = o
      · subst hq; rw [upd_self, hr]; rfl
      · rw [upd_ne _ _ hq]
  · intro p rp w hp hw hwr
    obtain ⟨r0, a1, a2, _⟩ := hget p rp hp
    rw [a2] at hw
    obtain ⟨rw0, e⟩ := hI.refs p r0 w a1 hw hwr
    obtain ⟨rp', e', _⟩ := hlive w rw0 e
    exact ⟨rp', e'⟩
  · intro p rp hp
    obtain ⟨r0, a1, _⟩ := hget p rp hp
    exact hI.recs p r0 a1

theorem dropWhile_last {p : Word → Bool} {l vs : List Word} (hv : vs = (l.reverse.dropWhile p).reverse) (h0 : vs ≠ []) :
    ∃ w, vs.getLast? = some w ∧ p w = false ∧ ∀ x ∈ vs, x ∈ l := by
  subst hv
  rw [ne_eq, List.reverse_eq_nil_iff] at h0
  obtain ⟨a, t, e⟩ := List.exists_cons_of_ne_nil h0
  refine ⟨a, by rw [e]; simp, ?_, fun x hx => ?_⟩
  · have := List.head?_dropWhile_not p l.reverse
    rw [e] at this
    simpa using this
  · have := (List.dropWhile_suffix p).subset (List.mem_reverse.1 hx)
    exact List.mem_reverse.1 this

theorem pairwise_sub {p : Word → Bool} {l vs : List Word} (hv : vs = (l.reverse.dropWhile p).reverse) {R : Word → Word → Prop} (hl : l.Pairwise R) : vs.Pairwise R := by
  subst hv
  rw [List.pairwise_reverse]
  exact (List.pairwise_reverse.2 hl).sublist (List.dropWhile_suffix p).sublist

/-- The creation of a match record. -/
theorem addTemplate_ix {s : Db (List Idx)} (hI : IInv C s) {vals : List Word} {al : Option Word} (hv : Vals s.h vals)
    (hal : ∀ o, al = some o → s.h.recs o = none ∧ isRecVal o = true) (hcol : ∀ e ∈ s.ix, vals.length ≤ e.col) :
    ∃ s' o, addTemplate s vals al = some (s', o) ∧ IInv C s' ∧ s'.ix.map Idx.key = s.ix.map Idx.key ∧
      (o = 0#64 ∧ s' = s ∨ o ≠ 0#64 ∧ TmplOK s'.h o ∧ Moves C s.h s'.h (· = o) ∧ s.h.recs o = none) := by
  unfold addTemplate
  by_cases hlen : vals.length > 128
  · rw [if_pos hlen]; exact ⟨s, _, rfl, hI, rfl, Or.inl ⟨rfl, rfl⟩⟩
  rw [if_neg hlen]
  by_cases hany : vals.any isRecVal = true
  · rw [if_pos hany]; exact ⟨s, _, rfl, hI, rfl, Or.inl ⟨rfl, rfl⟩⟩
  rw [if_neg hany]
  simp only
  obtain ⟨vs, hvs⟩ : ∃ vs, vs = (vals.reverse.dropWhile fun w => !isFixedVal s.h w).reverse := ⟨_, rfl⟩
  rw [← hvs]
  by_cases h0 : vs = []
  · rw [if_pos h0]; exact ⟨s, _, rfl, hI, rfl, Or.inl ⟨rfl, rfl⟩⟩
  rw [if_neg h0]
  obtain ⟨lw, hlast, hlf, hsub⟩ := dropWhile_last hvs h0
  have hlenv : vs.length ≤ vals.length := by
    rw [hvs, List.length_reverse]
    exact (List.dropWhile_suffix _).length_le.trans (by simp)
  have hrec : ∀ v ∈ vs, isRecVal v = false := by
    intro v hm
    cases e : isRecVal v with
    | false => rfl
    | true => exact absurd (List.any_eq_true.2 ⟨v, hsub v hm, e⟩) hany
  simp only [createRaw, if_neg (show ¬ ((vs.length : Int) < 0) by omega), Int.toNat_natCast]
  cases al with
  | none => simp only [if_true]; exact ⟨s, _, rfl, hI, rfl, Or.inl ⟨rfl, rfl⟩⟩
  | some o =>
    obtain ⟨a1, a2⟩ := hal o rfl
    have ho : o ≠ 0#64 := by rintro rfl; exact absurd a2 (by decide)
    simp only [if_neg ho]
    obtain ⟨h1, hh, hi, hg, hcat, hm, hno, hro, hst⟩ := created hI 0#64 vs.length a1 a2
    rw [← hh]
    have hmr : ∀ e ∈ s.ix, e.mrec ≠ o := by
      intro e he h1
      by_cases h2 : e.mrec = 0#64
      · exact ho (h1.symm.trans h2)
      · exact hI.cat.fresh a1 e he h2 h1
    have hvals : Vals h1 vs := by
      refine ⟨fun v hm' => ?_, pairwise_sub hvs hv.2⟩
      obtain ⟨b1, b2⟩ := hv.1 v (hsub v hm')
      have hl : LiveS h1 v := by rw [hh]; exact b1.live
      refine ⟨⟨hl, fun e => ?_, fun hown q hq => ?_⟩, b2.congr (hm.value v b1.live hl)⟩
      · rw [hrec v hm'] at e; cases e
      · cases q with
        | tmp k => simp [Held, fldF] at hq
        | ext a => rw [hh] at hq; exact b1.loose hown (.ext a) hq
        | fld p c =>
          by_cases hp : p = o
          · subst hp
            simp only [Held, fldF, hro, Option.bind_some] at hq
            have := (List.mem_replicate.1 (List.mem_of_getElem? hq)).2
            subst this
            rcases hown with k | k | k <;> exact absurd k (by decide)
          · rw [hh] at hq
            simp only [Held, fldF, upd_ne _ _ hp] at hq
            exact b1.loose hown (.fld p c) hq
    have hpend : Pend h1 s.ix o (List.range' 0 vs.length) := by
      refine ⟨⟨_, hro, by simp [Rec.special], fun c hc => ?_, fun e he => Or.inl (by simpa using (hlenv.trans (hcol e he)))⟩, hmr, hno⟩
      have := List.mem_range'_1.1 hc
      rw [List.getElem?_replicate, if_pos (by omega)]
    have hst' : St h1 s.ix (fun e q => Row h1 e.col e.mrec q ∧ Todo o (List.range' 0 vs.length) e q) := by
      refine fun e he => (hst e he).congr fun q => and_congr_right fun hrow => ?_
      obtain ⟨rc, k1, _, k3, _⟩ := hrow
      constructor
      · intro hq hq2; exact absurd hq2 hq
      · intro hq hq2
        subst hq2
        rw [hro] at k1; cases k1
        exact hq rfl (List.mem_range'_1.2 (by simpa using k3))
    obtain ⟨s1, e1, g1, g2, g3, g4, g5, g6, ⟨ro, r1, r2⟩, g8, g9⟩ := setNewAll_ix (s := ⟨h1, s.ix⟩) vs 0 [] hi hg hcat
      hpend hst' ⟨_, hro, by simp⟩ rfl hvals hrec a2
    · rw [e1]
      simp only
      rw [if_neg (by decide)]
      simp only [r1, Option.map_some]
      refine ⟨_, _, rfl, ?_⟩
      have hmark := mark_inv g1 r1 (ro.info ||| 3#64)
      have hro1 : ro.info ||| 3#64 = ro.info ||| 3#64 := rfl
      generalize hh2 : ({ s1.h with recs := upd s1.h.recs o (some { ro with info := ro.info ||| 3#64 }) } : Heap) = h2 at hmark ⊢
      have hro2 : h2.recs o = some { ro with info := ro.info ||| 3#64 } := by rw [← hh2]; exact upd_self _ _ _
      have hspec : ({ ro with info := ro.info ||| 3#64 } : Rec).special = true := by
        have : ∀ w : Word, (w ||| 3#64) &&& 1#64 = 1#64 := fun w => by
          ext i hi
          simp only [BitVec.getElem_and, BitVec.getElem_or]
          by_cases h0 : i = 0
          · subst h0; simp
          · have : (1#64)[i] = false := by
              simp [BitVec.getElem_one, h0]
            simp [this]
        simp [Rec.special, this]
      have hrecs2 : ∀ p, p ≠ o → h2.recs p = s1.h.recs p := fun p hp => by rw [← hh2]; exact upd_ne _ _ hp
      have hsv : ∀ w, SameValue s1.h h2 w := fun w => by rw [← hh2]; exact SameValue.refl s1.h w
      have hmv2 : Moves C s1.h h2 (· = o) := ⟨g1.str, hmark.str, fun w _ _ => hsv w, fun p hp => by
        rw [hrecs2 p hp]; exact ⟨id, fun rc e => ⟨rc.back, e⟩⟩⟩
      have hview : view h2 = view s1.h := by
        funext p
        by_cases hp : p = o
        · subst hp; simp [view, r1, hro2]
        · simp only [view, hrecs2 p hp]
      have hg2 : AllGood h2 := hmv2.allGood g2 fun p c w hw => Or.inl ⟨p, c, by rw [← hview]; exact hw⟩
      have hcol1 : ∀ e ∈ s1.ix, vs.length ≤ e.col ∧ e.mrec ≠ o := by
        intro e he
        obtain ⟨e0, k1, k2⟩ := mem_key g4 he
        obtain ⟨a, b, _⟩ := Idx.key_inj k2
        rw [a, b]; exact ⟨hlenv.trans (hcol e0 k1), hmr e0 k1⟩
      refine ⟨⟨hmark, hg2, fun e he => hmv2.idxOK (g3 e he) fun _ => (hcol1 e he).2, ?_⟩, g4, Or.inr ⟨ho, ⟨Or.inr ⟨_, hro2, hspec, ?_, ?_⟩, Or.inr ⟨_, lw, hro2, ?_, ?_⟩⟩, ?_, a1⟩⟩
      · have hnoto : ∀ e ∈ s1.ix, ¬ Row s1.h e.col e.mrec o := by
          rintro e he ⟨rc, k1, _, k3, _⟩
          rw [r1] at k1; cases k1
          rw [r2] at k3
          have := (hcol1 e he).1
          simp at k3; omega
        have := hmv2.st hg2 g6 fun e he q hq => by
          obtain ⟨rq, q1, q2, q3, q4⟩ := hq
          exact ⟨_, field_col q1 q3, by rw [hview]; exact field_col q1 q3, far_none (g5.noref) (field_col q1 q3)⟩
        refine fun e he => (this e he).congr fun q => ?_
        by_cases hq : q = o
        · subst hq
          constructor
          · intro k; exact absurd k (hnoto e he)
          · rintro ⟨rc, k1, k2, _⟩
            rw [hro2] at k1; cases k1
            rw [hspec] at k2; cases k2
        · exact (hmv2.row (g3 e he) (fun _ => (hcol1 e he).2) hq).symm
      · rw [r2]; simp; omega
      · rw [r2]; simpa using hrec
      · rw [r2]; simpa using hlast
      · have hlw := hv.1 lw (hsub lw (List.mem_of_getLast? hlast))
        have hl1 : LiveS h1 lw := by rw [hh]; exact hlw.1.live
        have t1 := (hm.value lw hlw.1.live hl1).rsame.typ
        have t2 := (g9 lw hl1).2.rsame.typ
        have t3 := (hsv lw).rsame.typ
        rw [t3, t2, t1]
        simpa [isFixedVal] using hlf
      · refine ⟨hI.inv.str, hmark.str, fun w w1 w2 => ?_, fun p hp => ?_⟩
        · have hl1 : LiveS h1 w := by rw [hh]; exact w1
          exact (hm.value w w1 hl1).trans ((g9 w hl1).2.trans (hsv w))
        · rw [hrecs2 p hp]
          refine ⟨fun e => (g8 p hp).1 ((hm.recs p hp).1 e), fun rc e => ?_⟩
          obtain ⟨b1, e3⟩ := (hm.recs p hp).2 rc e
          obtain ⟨b2, e4⟩ := (g8 p hp).2 _ e3
          exact ⟨b2, e4⟩

/-! ### Creation of an index -/

theorem fillIx_key : ∀ (rs : List Word) (e : Idx), (fillIx h rs e).key = e.key
  | [], e => rfl
  | r :: t, e => by
    simp only [fillIx]
    cases h.recs r with
    | none => exact fillIx_key t e
    | some rc =>
      simp only
      rw [fillIx_key t]
      split_ifs <;> rfl

theorem fillIx_ok (hs : SInv C h (fldF h)) (hg : AllGood h) : ∀ (rs : List Word) {e : Idx} {S : Word → Prop}, IdxOK h e → IdxSt h e S → rs.Nodup →
    (∀ r ∈ rs, ¬ S r) → (∀ r ∈ rs, ∃ rc, h.recs r = some rc ∧ rc.special = false) →
    IdxSt h (fillIx h rs e) (fun q => S q ∨ q ∈ rs ∧ Row h e.col e.mrec q)
  | [], e, S, _, hi, _, _, _ => hi.congr fun q => by simp
  | r :: t, e, S, ho, hi, hnd, hS, hlive => by
    obtain ⟨rc, hr, hsp⟩ := hlive r (by simp)
    obtain ⟨hrt, hnd'⟩ := List.nodup_cons.1 hnd
    have hrow : Row h e.col e.mrec r ↔ e.col < rc.fields.length ∧ matchTemplate h e.mrec r = true := by
      rw [matchTemplate_iff hr (tmpl_live ho.tmpl) ho.trim]
      simp [Row, hr, hsp]
    have hlive' : ∀ q ∈ t, ∃ rc, h.recs q = some rc ∧ rc.special = false := fun q hq => hlive q (by simp [hq])
    have skip : ¬ Row h e.col e.mrec r → IdxSt h (fillIx h t e) (fun q => S q ∨ q ∈ r :: t ∧ Row h e.col e.mrec q) := by
      intro hn
      refine (fillIx_ok hs hg t ho hi hnd' (fun q hq => hS q (by simp [hq])) hlive').congr fun q => ?_
      by_cases hq : q = r
      · subst hq; simp [hn, hrt]
      · simp [hq]
    simp only [fillIx, hr]
    by_cases h1 : rc.fields.length ≤ e.col
    · rw [if_pos h1]
      exact skip (fun k => by have := (hrow.1 k).1; omega)
    rw [if_neg h1]
    by_cases h2 : matchTemplate h e.mrec r = true
    · rw [if_pos h2]
      have hf := field_col hr (show e.col < rc.fields.length by omega)
      obtain ⟨a1, a2⟩ := hi.add (hS r (by simp)) hf (field_val hs hg hf)
      have hk : (addRowIx h r e).1.key = e.key := rfl
      obtain ⟨c1, c2, _⟩ := Idx.key_inj hk
      have := fillIx_ok hs hg t (ho.key hk) a2 hnd' (by
        rintro q hq (k | k)
        · exact hS q (by simp [hq]) k
        · subst k; exact hrt hq) hlive'
      rw [c1, c2] at this
      refine this.congr fun q => ?_
      have hrow' := hrow.2 ⟨by omega, h2⟩
      by_cases hq : q = r
      · subst hq; simp [hrow']
      · simp [hq]
    · rw [if_neg h2]
      exact skip (fun k => h2 (hrow.1 k).2)

theorem createIndex_ix {s : Db (List Idx)} (hI : IInv C s) {c : Nat} {m : Word} {rs : List Word} {root : Nat} (hm : m = 0#64 ∨ m ≠ 0#64 ∧ TmplOK s.h m)
    (hnd : rs.Nodup) (hrs : ∀ r, r ∈ rs ↔ ∃ rc, s.h.recs r = some rc ∧ rc.special = false) (h0 : root ≠ 0) :
    IInv C ⟨s.h, (createIndex s.h s.ix c m rs root).1⟩ ∧
      ((createIndex s.h s.ix c m rs root).2 = -1 ∧ (createIndex s.h s.ix c m rs root).1 = s.ix ∨
        (createIndex s.h s.ix c m rs root).2 = 0 ∧ ∃ e, (createIndex s.h s.ix c m rs root).1 = e :: s.ix ∧ e.col = c ∧ e.mrec = m) := by
  unfold createIndex
  by_cases h1 : c > 127
  · rw [if_pos h1]; exact ⟨hI, Or.inl ⟨rfl, rfl⟩⟩
  rw [if_neg h1]
  by_cases h2 : m ≠ 0#64 ∧ c ∈ fixedCols s.h m
  · rw [if_pos h2]; exact ⟨hI, Or.inl ⟨rfl, rfl⟩⟩
  rw [if_neg h2]
  by_cases h3 : (s.ix.any fun e => e.col == c && e.mrec == m) = true
  · rw [if_pos h3]; exact ⟨hI, Or.inl ⟨rfl, rfl⟩⟩
  rw [if_neg h3]
  dsimp only
  generalize he : ({ col := c, mrec := m, fixed := if m = 0#64 then [] else fixedCols s.h m
                     st := create (idxEnv s.h c) (fun _ => ⟨0, 0, 0, 0, 0, illegal, illegal, [], 0, 0⟩) root, next := root + 1 } : Idx) = e
  have e1 : e.col = c := by rw [← he]
  have e2 : e.mrec = m := by rw [← he]
  have e3 : e.fixed = if m = 0#64 then [] else fixedCols s.h m := by rw [← he]
  have hok : IdxOK s.h e := by
    refine ⟨by rw [e1]; omega, ?_, ?_, by rw [e3, e2]; rfl, ?_⟩
    · rw [e2]; rcases hm with hm | ⟨_, hm⟩
      · exact Or.inl hm
      · exact hm.1
    · rw [e2]; rcases hm with hm | ⟨_, hm⟩
      · exact Or.inl hm
      · exact hm.2
    · rw [e1, e3]
      split_ifs with hz
      · simp
      · intro hc; exact h2 ⟨hz, hc⟩
  have hst : IdxSt s.h e (fun _ => False) := IdxSt.create hI.inv.str hI.good h0 (by rw [← he]) (by rw [← he])
  have hfill := fillIx_ok hI.inv.str hI.good rs hok hst hnd (by simp) (fun r hr => (hrs r).1 hr)
  have hk := fillIx_key (h := s.h) rs e
  obtain ⟨k1, k2, k3⟩ := Idx.key_inj hk
  refine ⟨⟨hI.inv, hI.good, ?_, ?_⟩, Or.inr ⟨rfl, _, rfl, k1.trans e1, k2.trans e2⟩⟩
  · intro e' he'
    rcases List.mem_cons.1 he' with rfl | he'
    · exact hok.key hk
    · exact hI.cat e' he'
  · intro e' he'
    rcases List.mem_cons.1 he' with rfl | he'
    · refine hfill.congr fun q => ?_
      simp only [false_or, k1, k2]
      exact ⟨And.right, fun hrow => ⟨(hrs q).2 (by obtain ⟨rc, a, b, _⟩ := hrow; exact ⟨rc, a, b⟩), hrow⟩⟩
    · exact hI.rows e' he'

end WG.Recs
