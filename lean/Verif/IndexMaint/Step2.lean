import Verif.IndexMaint.Step
/-! # Indexes after the other record operations -/
namespace WG.Recs
open WG.TTree

variable {C : Prop} {h h' : Heap} {D : Word → Prop}

/-! ### Records without parents -/

theorem no_leads {T : Table} {r : Word} (hn : ∀ p c, T.field p c ≠ some r) : ∀ L : List (Word × Nat), ¬ Leads T r L
  | [] => id
  | [(p, c)] => hn p c
  | _ :: (q, d) :: t => fun hl => no_leads hn ((q, d) :: t) hl.2

theorem far_none {r : Word} (hn : ∀ p c, (view h).field p c ≠ some r) {q w : Word} {c : Nat} (hf : (view h).field q c = some w) : Far h.reader (· = r) 7 w :=
  far_of_leads 7 hf fun A _ => no_leads hn _

theorem no_field (hI : Inv C h) {o : Word} (ho : h.recs o = none) (hz : isRecVal o = true) (p : Word) (c : Nat) : (view h).field p c ≠ some o := by
  intro hf
  obtain ⟨rc, hr, hw⟩ := field_mem.1 hf
  obtain ⟨ro, e⟩ := hI.refs p rc o hr (List.mem_of_getElem? hw) hz
  rw [ho] at e; cases e

/-- Template records. -/
def TmplOK (h : Heap) (m : Word) : Prop := Tmpl h m ∧ Trimmed h m

theorem Moves.tmplOK (hm : Moves C h h' D) {m : Word} (h0 : m ≠ 0#64) (hD : ¬ D m) (ht : TmplOK h m) : TmplOK h' m := by
  obtain ⟨ht, htr⟩ := ht
  constructor
  · rcases ht with h1 | ⟨mr, h1, h2, h3, h4⟩
    · exact absurd h1 h0
    · obtain ⟨b, hb⟩ := (hm.recs _ hD).2 mr h1
      exact Or.inr ⟨_, hb, h2, h3, h4⟩
  · rcases htr with h1 | ⟨mr, w, h1, h2, h3⟩
    · exact absurd h1 h0
    · obtain ⟨b, hb⟩ := (hm.recs _ hD).2 mr h1
      refine Or.inr ⟨_, w, hb, h2, ?_⟩
      have hf : (view h).field m (mr.fields.length - 1) = some w := field_mem.2 ⟨mr, h1, by rw [← List.getLast?_eq_getElem?]; exact h2⟩
      have := (hm.rsame (w := w) ⟨⟨_, _, hf⟩, ⟨m, mr.fields.length - 1, by rw [← hf]; simp only [Table.field, hm.seen m hD]⟩⟩).typ
      rw [this]; exact h3

/-! ### Values -/

theorem Moves.of_recs (hI : Inv C h) (hI' : Inv C h') (hr : h'.recs = h.recs) (hv : ∀ w, LiveS h w → LiveS h' w → SameValue h h' w) :
    Moves C h h' (fun _ => False) :=
  ⟨hI.str, hI'.str, hv, fun p _ => by rw [hr]; exact ⟨id, fun rc e => ⟨rc.back, e⟩⟩⟩

theorem far_false (R : Reader) : ∀ (d : Nat) (w : Word), Far R (fun _ => False) d w
  | 0, _ => trivial
  | d + 1, _ => fun _ => ⟨id, fun f _ => far_false R d f⟩

/-- Nothing moves: any set of rows stays. -/
theorem Moves.quiet (hm : Moves C h h' (fun _ => False)) (hg : AllGood h) {x : List Idx} {G : Rows} (hc : Cat h x)
    (hx : St h x (fun e q => Row h e.col e.mrec q ∧ G e q)) :
    AllGood h' ∧ Cat h' x ∧ St h' x (fun e q => Row h' e.col e.mrec q ∧ G e q) := by
  have hseen : view h' = view h := funext fun p => hm.seen p id
  have hg' : AllGood h' := hm.allGood hg fun p c w hw => Or.inl ⟨p, c, by rw [← hseen]; exact hw⟩
  refine ⟨hg', fun e he => hm.idxOK (hc e he) fun _ => id, ?_⟩
  have := hm.st hg' hx fun e he q hq => by
    obtain ⟨⟨rc, h1, h2, h3, h4⟩, _⟩ := hq
    exact ⟨_, field_col h1 h3, by rw [hseen]; exact field_col h1 h3, far_false _ _ _⟩
  exact fun e he => (this e he).congr fun q => and_congr (hm.row (hc e he) (fun _ => id) id).symm Iff.rfl

/-! ### Creation -/

/-- A new record appears. -/
theorem create_moves (hI : Inv C h) {o : Word} {bits : Word} {n : Nat} (ho : h.recs o = none) (hz : isRecVal o = true) :
    Moves C h { h with recs := upd h.recs o (some ⟨bits, 0#64, List.replicate n 0#64⟩) } (· = o) := by
  refine ⟨hI.str, (hI.create ho hz).str, fun w h1 h2 => ?_, fun p hp => ?_⟩
  · exact Sub.stepValue (h := h) (h' := { h with recs := upd h.recs o _ }) ⟨fun _ _ e => e, fun _ _ e => e, fun _ _ e => e, fun _ s e => ⟨s, e, rfl, rfl, rfl⟩⟩
      (hI.create ho hz) w h1 h2
  · simp only [upd_ne _ _ hp]
    exact ⟨id, fun rc e => ⟨rc.back, e⟩⟩

theorem good_null : Good h 0#64 :=
  ⟨⟨.null, trivial, rfl⟩, fun hf => absurd hf (by decide)⟩

theorem Cat.fresh {x : List Idx} (hc : Cat h x) {o : Word} (ho : h.recs o = none) : ∀ e ∈ x, e.mrec ≠ 0#64 → e.mrec ≠ o := by
  intro e he h0 h1
  rcases (hc e he).tmpl with h2 | ⟨mr, h2, _⟩
  · exact h0 h2
  · rw [h1, ho] at h2; cases h2

/-- The indexes right after the record was created. -/
theorem created {s : Db (List Idx)} (hI : IInv C s) {o : Word} (bits : Word) (n : Nat) (ho : s.h.recs o = none) (hz : isRecVal o = true) :
    ∃ h', h' = { s.h with recs := upd s.h.recs o (some ⟨bits, 0#64, List.replicate n 0#64⟩) } ∧ Inv C h' ∧ AllGood h' ∧ Cat h' s.ix ∧
      Moves C s.h h' (· = o) ∧ (∀ p c, (view h').field p c ≠ some o) ∧ h'.recs o = some ⟨bits, 0#64, List.replicate n 0#64⟩ ∧
      St h' s.ix (fun e q => Row h' e.col e.mrec q ∧ q ≠ o) := by
  have hm := create_moves (bits := bits) (n := n) hI.inv ho hz
  have hi := hI.inv.create (bits := bits) (n := n) ho hz
  refine ⟨_, rfl, hi, ?_⟩
  generalize hh : ({ s.h with recs := upd s.h.recs o (some ⟨bits, 0#64, List.replicate n 0#64⟩) } : Heap) = h' at hm hi ⊢
  have hro : h'.recs o = some ⟨bits, 0#64, List.replicate n 0#64⟩ := by rw [← hh]; exact upd_self _ _ _
  have hno := no_field hI.inv ho hz
  have hfo : ∀ c w, (view h').field o c = some w → w = 0#64 := by
    intro c w hw
    obtain ⟨rc, h1, h2⟩ := field_mem.1 hw
    rw [hro] at h1; cases h1
    exact (List.mem_replicate.1 (List.mem_of_getElem? h2)).2
  have hfp : ∀ p c, p ≠ o → (view h').field p c = (view s.h).field p c := fun p c hp => by simp only [Table.field, hm.seen p hp]
  have hg' : AllGood h' := hm.allGood hI.good fun p c w hw => by
    by_cases hp : p = o
    · subst hp; rw [hfo c w hw]; exact Or.inr good_null
    · rw [hfp p c hp] at hw; exact Or.inl ⟨p, c, hw⟩
  have hfresh := hI.cat.fresh ho
  refine ⟨hg', fun e he => hm.idxOK (hI.cat e he) (hfresh e he), hm, ?_, hro, ?_⟩
  · intro p c hf
    by_cases hp : p = o
    · subst hp
      rw [hfo c p hf] at hz; exact absurd hz (by decide)
    · rw [hfp p c hp] at hf; exact hno p c hf
  · have := hm.st hg' hI.rows fun e he q hq => by
      obtain ⟨rc, h1, h2, h3, h4⟩ := hq
      have hq : q ≠ o := by rintro rfl; rw [ho] at h1; cases h1
      exact ⟨_, field_col h1 h3, by rw [hfp q _ hq]; exact field_col h1 h3, far_none hno (field_col h1 h3)⟩
    refine fun e he => (this e he).congr fun q => ?_
    constructor
    · rintro ⟨rc, h1, h2⟩
      have hq : q ≠ o := by rintro rfl; rw [ho] at h1; cases h1
      exact ⟨(hm.row (hI.cat e he) (hfresh e he) hq).2 ⟨rc, h1, h2⟩, hq⟩
    · rintro ⟨h1, hq⟩
      exact (hm.row (hI.cat e he) (hfresh e he) hq).1 h1

theorem rowsNeOk (h : Heap) (o : Word) : Rows.Ok (fun e q => Row h e.col e.mrec q ∧ q ≠ o) := by
  intro e e' hk
  obtain ⟨a, b, _⟩ := Idx.key_inj hk
  simp only [a, b]

/-- All the indexes of one record, with `min len 128` columns. -/
theorem rec_row {e : Idx} (ho : IdxOK h e) {r : Word} {rc : Rec} (hr : h.recs r = some rc) (hsp : rc.special = false) {q : Word} :
    (q = r ∧ (0 ≤ e.col ∧ e.col < 0 + min rc.fields.length 128) ∧ matchTemplate h e.mrec r = true) ↔ q = r ∧ Row h e.col e.mrec q := by
  refine and_congr_right fun hq => ?_
  subst hq
  have hc := ho.col
  rw [matchTemplate_iff hr (tmpl_live ho.tmpl) ho.trim]
  constructor
  · rintro ⟨h1, h2⟩
    exact ⟨rc, hr, hsp, by omega, h2⟩
  · rintro ⟨rc', h1, h2, h3, h4⟩
    rw [hr] at h1; cases h1
    exact ⟨by omega, h4⟩

theorem createRecord_ix {s : Db (List Idx)} (hI : IInv C s) (len : Int) (bits : Word) {al : Option Word}
    (hal : ∀ o, al = some o → s.h.recs o = none ∧ isRecVal o = true) :
    IInv C (createRecord wgIx s len bits al).1 ∧ (createRecord wgIx s len bits al).1.ix.map Idx.key = s.ix.map Idx.key ∧
      (0 ≤ len → (createRecord wgIx s len bits al).2 = al.getD 0#64) := by
  simp only [createRecord, createRaw]
  by_cases hl : len < 0
  · simp only [if_pos hl, if_true]
    exact ⟨hI, by trivial, fun h => absurd hl (by omega)⟩
  simp only [if_neg hl]
  cases al with
  | none => exact ⟨hI, rfl, fun _ => rfl⟩
  | some o =>
    obtain ⟨a1, a2⟩ := hal o rfl
    have ho : o ≠ 0#64 := by rintro rfl; exact absurd a2 (by decide)
    simp only [if_neg ho]
    obtain ⟨h', hh, hi, hg, hcat, hm, hno, hro, hst⟩ := created hI bits len.toNat a1 a2
    rw [← hh]
    by_cases hb : bits &&& 1#64 ≠ 0#64
    · simp only [if_pos hb]
      refine ⟨⟨hi, hg, hcat, fun e he => (hst e he).congr fun q => ⟨And.left, fun hq => ⟨hq, ?_⟩⟩⟩, by trivial, ?_⟩
      · rintro rfl
        obtain ⟨rc, h1, h2, _⟩ := hq
        rw [hro] at h1; cases h1
        simp [Rec.special] at h2
        exact hb h2
      · intro _; simp
    · simp only [if_neg hb]
      have hsp : (⟨bits, 0#64, List.replicate len.toNat 0#64⟩ : Rec).special = false := by
        simp only [Rec.special]; simpa using hb
      have hadd : wgIx.addRec h' s.ix o = recLoop (opIx true) h' o (min (List.replicate len.toNat (0#64 : Word)).length 128) 0 s.ix := by
        show recIx (opIx true) h' s.ix o = _
        simp only [recIx, hro]
        rw [if_neg (by rw [hsp]; decide)]
      rw [hadd]
      obtain ⟨b1, b2, b3⟩ := recLoop_ok hi.str hg true hro (min (List.replicate len.toNat (0#64 : Word)).length 128) 0 (rowsNeOk h' o) hst (by simp)
        (fun e he q hq hs => hs.2 hq.1)
      refine ⟨⟨hi, hg, hcat.key b2, fun e he => (b3 e he).congr fun q => ?_⟩, b2, ?_⟩
      · obtain ⟨e0, h0, hk⟩ := mem_key b2 he
        simp only [Change, if_true]
        have hok : IdxOK h' e := (hcat e0 h0).key hk
        rw [rec_row hok hro hsp]
        by_cases hq : q = o <;> simp [hq]
      · intro _
        rw [b1]; simp

/-! ### Deletion -/

theorem deleteRecord_ix {s : Db (List Idx)} (hI : IInv C s) {r : Word} (hrec : ∃ rc, s.h.recs r = some rc) (hm : ∀ e ∈ s.ix, e.mrec ≠ r) :
    ∃ s' code, deleteRecord wgIx s r = some (s', code) ∧ (code = 0 ∨ code = -1 ∧ s' = s) ∧ (code = -1 ↔ (view s.h).Refers r) ∧ IInv C s' ∧
      s'.ix.map Idx.key = s.ix.map Idx.key ∧ (code = 0 → Moves C s.h s'.h (· = r)) := by
  obtain ⟨s', code, h1, h2, h3, h4, h5⟩ := deleteRecord_full wgIx hI.inv hrec
  rw [← refers_iff] at h3
  obtain ⟨rc, hr⟩ := hrec
  have h4' := fun hc => h4 hc rc hr
  have h5' := fun hc => h5 hc rc hr
  refine ⟨s', code, h1, ?_⟩
  -- the indexes without the record
  obtain ⟨y, hy⟩ : ∃ y, y = if rc.special then (s.ix, 0) else wgIx.delRec s.h s.ix r := ⟨_, rfl⟩
  have key : y.2 = 0 ∧ y.1.map Idx.key = s.ix.map Idx.key ∧ St s.h y.1 (fun e q => Row s.h e.col e.mrec q ∧ q ≠ r) := by
    subst hy
    by_cases hsp : rc.special = true
    · rw [if_pos hsp]
      refine ⟨rfl, rfl, fun e he => (hI.rows e he).congr fun q => ⟨fun hq => ⟨hq, ?_⟩, And.left⟩⟩
      rintro rfl
      obtain ⟨rc', e1, e2, _⟩ := hq
      rw [hr] at e1; cases e1
      rw [hsp] at e2; cases e2
    · rw [if_neg hsp]
      have hsp' : rc.special = false := by simpa using hsp
      have hdel : wgIx.delRec s.h s.ix r = recLoop (opIx false) s.h r (min rc.fields.length 128) 0 s.ix := by
        show recIx (opIx false) s.h s.ix r = _
        simp only [recIx, hr]
        rw [if_neg hsp]
      rw [hdel]
      obtain ⟨b1, b2, b3⟩ := recLoop_ok hI.inv.str hI.good false hr (min rc.fields.length 128) 0 (rowsOk s.h) hI.rows (by omega)
        (fun e he q hq => ((rec_row (hI.cat e he) hr hsp').1 hq).2)
      refine ⟨b1, b2, fun e he => (b3 e he).congr fun q => ?_⟩
      obtain ⟨e0, h0, hk⟩ := mem_key b2 he
      simp only [Change, Bool.false_eq_true, if_false]
      rw [rec_row ((hI.cat e0 h0).key hk) hr hsp']
      constructor
      · rintro ⟨a, b⟩; exact ⟨a, fun c => b ⟨c, a⟩⟩
      · rintro ⟨a, b⟩; exact ⟨a, fun c => b c.1⟩
  obtain ⟨k1, k2, k3⟩ := key
  rw [← hy] at h4' h5'
  cases h2 with
  | refused e1 e2 => subst e1; exact ⟨Or.inr ⟨e2, rfl⟩, h3, hI, rfl, fun e => absurd e (by omega)⟩
  | index e1 e2 => exact absurd (h4' e2) (by rw [k1]; decide)
  | gone g1 g2 g3 g4 g5 =>
    have hmv : Moves C s.h s'.h (· = r) := ⟨hI.inv.str, g4.str, fun w => g2.stepValue g4 w, fun p hp => g1.2 p hp⟩
    have hnref : ∀ p c, (view s.h).field p c ≠ some r := by
      intro p c hf
      have : code = -1 := h3.2 ⟨p, by
        simp only [Table.field] at hf
        cases e : view s.h p with
        | none => rw [e] at hf; cases hf
        | some fs => rw [e] at hf; exact ⟨fs, rfl, List.mem_of_getElem? hf⟩⟩
      omega
    have hix := h5' g5
    refine ⟨Or.inl g5, h3, ?_, by rw [hix]; exact k2, fun _ => hmv⟩
    have hfp : ∀ p c w, (view s'.h).field p c = some w → p ≠ r ∧ (view s.h).field p c = some w := by
      intro p c w hw
      have hp : p ≠ r := by
        rintro rfl
        obtain ⟨rc', e1, _⟩ := field_mem.1 hw
        rw [g1.1] at e1; cases e1
      refine ⟨hp, ?_⟩
      rw [← hw]; simp only [Table.field, hmv.seen p hp]
    have hg' : AllGood s'.h := hmv.allGood hI.good fun p c w hw => Or.inl ⟨p, c, (hfp p c w hw).2⟩
    have hmr : ∀ e ∈ y.1, e.mrec ≠ r := by
      intro e he
      obtain ⟨e0, h0, hk⟩ := mem_key k2 he
      rw [(Idx.key_inj hk).2.1]; exact hm e0 h0
    have hcat := hI.cat.key k2
    refine ⟨g4, hg', ?_, ?_⟩
    · rw [hix]
      exact fun e he => hmv.idxOK (hcat e he) fun _ => hmr e he
    · rw [hix]
      have := hmv.st hg' k3 fun e he q hq => by
        obtain ⟨⟨rq, e1, e2, e3, e4⟩, hq⟩ := hq
        refine ⟨_, field_col e1 e3, ?_, far_none hnref (field_col e1 e3)⟩
        have : (view s'.h).field q e.col = (view s.h).field q e.col := by simp only [Table.field, hmv.seen q hq]
        rw [this]; exact field_col e1 e3
      refine fun e he => (this e he).congr fun q => ?_
      constructor
      · rintro ⟨h1, hq⟩
        exact (hmv.row (hcat e he) (fun _ => hmr e he) hq).2 h1
      · intro hrow
        have hq : q ≠ r := by
          intro hqr
          obtain ⟨rq, e1, _⟩ := hrow
          rw [hqr, g1.1] at e1; cases e1
        exact ⟨(hmv.row (hcat e he) (fun _ => hmr e he) hq).1 hrow, hq⟩

end WG.Recs
