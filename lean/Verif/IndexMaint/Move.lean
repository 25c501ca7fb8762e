import Verif.IndexMaint.Loops
/-! # The catalogue and the rows while the heap changes -/
namespace WG.Recs
open WG.TTree

variable {C : Prop} {h h' : Heap} {D : Word → Prop}

/-- One index of the catalogue is set up as by wg_create_index. -/
structure IdxOK (h : Heap) (e : Idx) : Prop where
  col : e.col ≤ 127
  tmpl : Tmpl h e.mrec
  trim : Trimmed h e.mrec
  fixed : e.fixed = fixOf h e.mrec
  apart : e.col ∉ e.fixed

def Cat (h : Heap) (x : List Idx) : Prop := ∀ e ∈ x, IdxOK h e

theorem IdxOK.key {e e' : Idx} (ho : IdxOK h e) (hk : e'.key = e.key) : IdxOK h e' := by
  obtain ⟨a, b, c⟩ := Idx.key_inj hk
  exact ⟨by rw [a]; exact ho.col, by rw [b]; exact ho.tmpl, by rw [b]; exact ho.trim, by rw [b, c]; exact ho.fixed, by rw [a, c]; exact ho.apart⟩

theorem Cat.key {x x' : List Idx} (hc : Cat h x) (hk : x'.map Idx.key = x.map Idx.key) : Cat h x' := by
  intro e' he
  obtain ⟨e, h1, h2⟩ := mem_key hk he
  exact (hc e h1).key h2

theorem Cat.is_apart {x : List Idx} (hc : Cat h x) : Apart x := fun e he => (hc e he).apart

theorem typ_isRecVal {w : Word} : h.reader.typ w = some .record ↔ isRecVal w = true := (isRecVal_type h.mem w).symm

/-- A reference never equals a value of a template. -/
theorem cmp_record {v w : Word} (hv : isRecVal v = false) (hw : isRecVal w = true) : WG_COMPARE h.reader v w ≠ 0 := by
  have hvw : v ≠ w := by rintro rfl; rw [hv] at hw; cases hw
  have t2 : typeCode h.reader w = 2 := by unfold typeCode; rw [typ_isRecVal.2 hw]; rfl
  have t1 : typeCode h.reader v ≠ 2 := by
    intro e
    unfold typeCode at e
    cases et : h.reader.typ v with
    | none => rw [et] at e; simp at e
    | some t =>
      rw [et] at e
      have : t = .record := by cases t <;> simp [WType.code] at e; rfl
      subst this
      rw [typ_isRecVal.1 et] at hv; cases hv
  unfold WG_COMPARE
  rw [if_neg hvw]
  unfold wgCompare
  simp only [t2]
  rw [if_neg (Ne.symm t1)]
  unfold gtElseLt
  split_ifs <;> decide

theorem tmpl_live {m : Word} (ht : Tmpl h m) : m = 0#64 ∨ ∃ mr, h.recs m = some mr := by
  rcases ht with h0 | ⟨mr, h1, _⟩
  · exact Or.inl h0
  · exact Or.inr ⟨mr, h1⟩

theorem hit_row {e : Idx} (ho : IdxOK h e) {q : Word} {c : Nat} : Hit h q c e ↔ (e.col = c ∨ c ∈ e.fixed) ∧ Row h e.col e.mrec q := by
  constructor
  · rintro ⟨rc, h1, h2, h3, h4, h5⟩
    exact ⟨h3, rc, h1, h2, h4, (matchTemplate_iff h1 (tmpl_live ho.tmpl) ho.trim).1 h5⟩
  · rintro ⟨h3, rc, h1, h2, h4, h5⟩
    exact ⟨rc, h1, h2, h3, h4, (matchTemplate_iff h1 (tmpl_live ho.tmpl) ho.trim).2 h5⟩

/-- A column that holds a reference concerns only the indexes on that column. -/
theorem hit_ref {e : Idx} (ho : IdxOK h e) {q w : Word} {c : Nat} (hf : (view h).field q c = some w) (hw : isRecVal w = true) (hh : Hit h q c e) : e.col = c := by
  obtain ⟨h1, rc, h2, h3, h4, h5⟩ := (hit_row ho).1 hh
  rcases h1 with h1 | h1
  · exact h1
  exfalso
  rw [ho.fixed, mem_fixOf] at h1
  obtain ⟨hm, v, hv, ht⟩ := h1
  rcases h5 with h5 | ⟨mf, rf, e1, e2, e3⟩
  · exact hm h5
  rcases ho.tmpl with h6 | ⟨mr, h6, h7, h8, h9⟩
  · exact hm h6
  simp only [Table.field, e1, Option.bind_some] at hv
  simp only [Table.field, e2, Option.bind_some] at hf
  obtain ⟨u, e4, e5⟩ := e3 c v hv ht
  rw [hf] at e4; cases e4
  have : mf = mr.fields := by simp [view, h6] at e1; exact e1.symm
  subst this
  exact cmp_record (h9 v (List.mem_of_getElem? hv)) hw e5

/-- The match record is left alone. -/
theorem Moves.idxOK (hm : Moves C h h' D) {e : Idx} (ho : IdxOK h e) (hD : e.mrec ≠ 0#64 → ¬ D e.mrec) : IdxOK h' e := by
  by_cases h0 : e.mrec = 0#64
  · refine ⟨ho.col, Or.inl h0, Or.inl h0, ?_, ho.apart⟩
    have := ho.fixed
    unfold fixOf at this ⊢
    rw [if_pos h0] at this ⊢; exact this
  have hv := hm.seen _ (hD h0)
  have hsame : ∀ c v, (view h).field e.mrec c = some v → h'.reader.typ v = h.reader.typ v := fun c v hc =>
    (hm.rsame ⟨⟨_, _, hc⟩, ⟨e.mrec, c, by rw [← hc]; simp only [Table.field, hv]⟩⟩).typ
  have hfix : ∀ c, c ∈ fixOf h' e.mrec ↔ c ∈ fixOf h e.mrec := by
    intro c
    rw [mem_fixOf, mem_fixOf]
    simp only [Table.field, hv]
    refine and_congr_right fun _ => exists_congr fun v => and_congr_right fun hc => ?_
    rw [hsame c v (by simp only [Table.field]; exact hc)]
  refine ⟨ho.col, ?_, ?_, ?_, ho.apart⟩
  · rcases ho.tmpl with h1 | ⟨mr, h1, h2, h3, h4⟩
    · exact absurd h1 h0
    · obtain ⟨b, hb⟩ := (hm.recs _ (hD h0)).2 mr h1
      exact Or.inr ⟨_, hb, h2, h3, h4⟩
  · rcases ho.trim with h1 | ⟨mr, w, h1, h2, h3⟩
    · exact absurd h1 h0
    · obtain ⟨b, hb⟩ := (hm.recs _ (hD h0)).2 mr h1
      refine Or.inr ⟨_, w, hb, h2, ?_⟩
      rw [hsame (mr.fields.length - 1) w (field_mem.2 ⟨mr, h1, by rw [← List.getLast?_eq_getElem?]; exact h2⟩)]
      exact h3
  · rw [ho.fixed]
    unfold fixOf
    rw [if_neg h0, if_neg h0]
    rcases ho.tmpl with h1 | ⟨mr, h1, h2, h3, h4⟩
    · exact absurd h1 h0
    obtain ⟨b, hb⟩ := (hm.recs _ (hD h0)).2 mr h1
    simp only [fixedCols, h1, hb]
    refine List.filter_congr fun c hc => ?_
    rw [List.mem_range] at hc
    simp only [isFixedVal]
    rw [List.getD_eq_getElem?_getD, List.getElem?_eq_getElem hc, Option.getD_some, hsame c _ (field_col h1 hc)]

/-- Whether a record matches depends on its fixed columns only. -/
theorem Moves.matches (hm : Moves C h h' D) {e : Idx} (ho : IdxOK h e) (hD : e.mrec ≠ 0#64 → ¬ D e.mrec) {q : Word} {rc rc' : Rec}
    (hq : h.recs q = some rc) (hq' : h'.recs q = some rc') (hf : ∀ c ∈ e.fixed, rc'.fields[c]? = rc.fields[c]?) :
    Matches h' e.mrec q ↔ Matches h e.mrec q := by
  unfold Matches
  by_cases h0 : e.mrec = 0#64
  · simp [h0]
  refine or_congr Iff.rfl ?_
  have hv := hm.seen _ (hD h0)
  rcases ho.tmpl with h1 | ⟨mr, h1, h2, h3, h4⟩
  · exact absurd h1 h0
  have hvm : view h e.mrec = some mr.fields := by simp [view, h1]
  have hvq : view h q = some rc.fields := by simp [view, hq]
  have hvq' : view h' q = some rc'.fields := by simp [view, hq']
  rw [hv, hvm, hvq, hvq']
  simp only [Option.some.injEq, exists_eq_left', exists_and_left]
  refine forall_congr' fun c => forall_congr' fun v => ?_
  have key : ∀ (hc : mr.fields[c]? = some v), h'.reader.typ v = h.reader.typ v := fun hc =>
    (hm.rsame ⟨⟨e.mrec, c, by simp [Table.field, hvm, hc]⟩, ⟨e.mrec, c, by simp [Table.field, hv, hvm, hc]⟩⟩).typ
  refine imp_congr_right fun hc => ?_
  rw [key hc]
  refine imp_congr_right fun ht => ?_
  have hcf : c ∈ e.fixed := by
    rw [ho.fixed, mem_fixOf]
    exact ⟨h0, v, by simp [Table.field, hvm, hc], ht⟩
  rw [hf c hcf]
  refine exists_congr fun w => and_congr_right fun hw => ?_
  rw [hm.cmp (a := v) (b := w) ⟨⟨e.mrec, c, by simp [Table.field, hvm, hc]⟩, ⟨e.mrec, c, by simp [Table.field, hv, hvm, hc]⟩⟩
    ⟨⟨q, c, by simp [Table.field, hvq, hw]⟩, ⟨q, c, by simp [Table.field, hvq', hf c hcf, hw]⟩⟩ ?_]
  intro hvr
  rw [typ_isRecVal, h4 v (List.mem_of_getElem? hc)] at hvr
  cases hvr

/-- Rows of records that are left alone. -/
theorem Moves.row (hm : Moves C h h' D) {e : Idx} (ho : IdxOK h e) (hD : e.mrec ≠ 0#64 → ¬ D e.mrec) {q : Word} (hq : ¬ D q) :
    Row h' e.col e.mrec q ↔ Row h e.col e.mrec q := by
  unfold Row
  obtain ⟨n, s⟩ := hm.recs q hq
  cases e1 : h.recs q with
  | none => rw [n e1]; simp
  | some rc =>
    obtain ⟨b, e2⟩ := s rc e1
    rw [e2]
    have := hm.matches ho hD e1 e2 (fun c _ => rfl)
    simp only [Option.some.injEq, exists_eq_left', Rec.special, this]

/-- The indexes stay in order while the heap changes away from their rows. -/
theorem Moves.st (hm : Moves C h h' D) (hg' : AllGood h') {x : List Idx} {S : Rows} (hx : St h x S)
    (hk : ∀ e ∈ x, ∀ q, S e q → ∃ w, (view h).field q e.col = some w ∧ (view h').field q e.col = some w ∧ Far h.reader D 7 w) : St h' x S := by
  intro e he
  refine (hx e he).update hm.new hg' (fun r hr => ?_) ?_
  · obtain ⟨w, e1, e2, _⟩ := hk e he r hr
    exact ⟨w, e1, e2⟩
  · intro r q a b hr hq ea eb
    obtain ⟨w, e1, e2, e3⟩ := hk e he r hr
    obtain ⟨u, f1, f2, f3⟩ := hk e he q hq
    rw [ea] at e1; cases e1
    rw [eb] at f1; cases f1
    exact hm.cmp ⟨⟨_, _, ea⟩, ⟨_, _, e2⟩⟩ ⟨⟨_, _, eb⟩, ⟨_, _, f2⟩⟩ fun _ _ => ⟨e3, f3⟩

/-- The state of database and indexes. -/
structure IInv (C : Prop) (s : Db (List Idx)) : Prop where
  inv : Inv C s.h
  good : AllGood s.h
  cat : Cat s.h s.ix
  rows : St s.h s.ix (fun e => Row s.h e.col e.mrec)

theorem rowsOk (h : Heap) : Rows.Ok (fun e => Row h e.col e.mrec) := by
  intro e e' hk
  obtain ⟨a, b, _⟩ := Idx.key_inj hk
  simp only [a, b]

theorem Rows.Ok.change {S : Rows} (hS : S.Ok) {P : Rows} (hP : P.Ok) (add : Bool) : Rows.Ok (fun e => Change add (S e) (P e)) := by
  intro e e' hk
  simp only [hS e e' hk, hP e e' hk]

theorem hitOk (h : Heap) (r : Word) (c : Nat) : Rows.Ok (fun e q => q = r ∧ Hit h r c e) := by
  intro e e' hk
  have := @Hit.key h r c e e' hk
  simp only [this]

theorem hitsOk (h : Heap) (L : List (Word × Nat)) : Rows.Ok (fun e q => ∃ c, (q, c) ∈ L ∧ Hit h q c e) := by
  intro e e' hk
  have := fun q c => @Hit.key h q c e e' hk
  simp only [this]

/-! ### The calls -/

theorem eachIx_key {sel : Idx → Bool} {f : Idx → Idx × Int} (hf : ∀ e, (f e).1.key = e.key) : ∀ x : List Idx, (eachIx sel f x).1.map Idx.key = x.map Idx.key
  | [] => rfl
  | e :: t => by
    simp only [eachIx]
    split_ifs
    · simp [hf]
    · simp [hf, eachIx_key hf t]
    · simp [eachIx_key hf t]

theorem fieldIx_key (add : Bool) (x : List Idx) (r : Word) (c : Nat) : (fieldIx (opIx add) h x r c).1.map Idx.key = x.map Idx.key := by
  unfold fieldIx
  split
  · rfl
  · split_ifs
    · rfl
    · rfl
    · dsimp only
      split_ifs
      · exact eachIx_key (opIx_key add r) x
      · rw [eachIx_key (opIx_key add r), eachIx_key (opIx_key add r)]

theorem byCol_key {x x' : List Idx} (hk : x'.map Idx.key = x.map Idx.key) : wgIx.byCol x' = wgIx.byCol x := by
  funext c
  have : ∀ x : List Idx, wgIx.byCol x c = (x.map Idx.key).any (fun k => k.1 == c) := by
    intro x
    simp only [wgIx, List.any_map]
    rfl
  rw [this, this, hk]

theorem byTmpl_key {x x' : List Idx} (hk : x'.map Idx.key = x.map Idx.key) : wgIx.byTmpl x' = wgIx.byTmpl x := by
  funext c
  have : ∀ x : List Idx, wgIx.byTmpl x c = (x.map Idx.key).any (fun k => decide (c ∈ k.2.2)) := by
    intro x
    simp only [wgIx, List.any_map]
    rfl
  rw [this, this, hk]

theorem keepsCols (add : Bool) : KeepsCols wgIx (fieldIx (opIx add) h) := fun x p c => byCol_key (fieldIx_key add x p c)

theorem byCol_iff {x : List Idx} {c : Nat} : wgIx.byCol x c = true ↔ ∃ e ∈ x, e.col = c := by simp [wgIx]
theorem byTmpl_iff {x : List Idx} {c : Nat} : wgIx.byTmpl x c = true ↔ ∃ e ∈ x, c ∈ e.fixed := by simp [wgIx]

theorem fixed_le {e : Idx} (ho : IdxOK h e) {c : Nat} (hc : c ∈ e.fixed) : c ≤ 127 := by
  rw [ho.fixed, mem_fixOf] at hc
  obtain ⟨h0, v, hv, _⟩ := hc
  rcases ho.tmpl with h1 | ⟨mr, h1, _, h3, _⟩
  · exact absurd h1 h0
  · obtain ⟨rc, h4, h5⟩ := field_mem.1 hv
    rw [h1] at h4; cases h4
    have := (List.getElem?_eq_some_iff.1 h5).1
    omega

/-- The part of a field update that concerns the record itself. -/
theorem touch_ok (hs : SInv C h (fldF h)) (hg : AllGood h) (add : Bool) {x : List Idx} {S : Rows} (hS : S.Ok) (hx : St h x S) (hcat : Cat h x) {r : Word} {rc : Rec}
    {c : Nat} (hr : h.recs r = some rc) (hl : c < rc.fields.length) (hready : ∀ e ∈ x, Ready add (S e) (fun q => q = r ∧ Hit h r c e))
    {y : List Idx × Int} (hy : y = if touches wgIx x rc c then fieldIx (opIx add) h x r c else (x, 0)) :
    y.2 = 0 ∧ y.1.map Idx.key = x.map Idx.key ∧ St h y.1 (fun e => Change add (S e) (fun q => q = r ∧ Hit h r c e)) := by
  subst hy
  split_ifs with ht
  · simp only [touches, Bool.and_eq_true, Bool.not_eq_true', decide_eq_true_eq] at ht
    exact fieldIx_ok hs hg add hS hx hcat.is_apart hr ht.1.1 ht.1.2 hl hready
  · refine ⟨rfl, rfl, fun e he => (hx e he).congr fun q => ?_⟩
    have : ¬ Hit h r c e := by
      rintro ⟨rc', h1, h2, h3, h4, h5⟩
      rw [hr] at h1; cases h1
      apply ht
      simp only [touches, Bool.and_eq_true, Bool.not_eq_true', decide_eq_true_eq, Bool.or_eq_true]
      refine ⟨⟨h2, ?_⟩, ?_⟩
      · rcases h3 with h3 | h3
        · rw [← h3]; exact (hcat e he).col
        · exact fixed_le (hcat e he) h3
      · exact h3.imp (fun a => byCol_iff.2 ⟨e, he, a⟩) (fun a => byTmpl_iff.2 ⟨e, he, a⟩)
    cases add <;> simp [Change, this]

/-- The walk over the parents. -/
theorem visit_ok (hI : Inv C h) (hg : AllGood h) (add : Bool) {x : List Idx} {S : Rows} (hS : S.Ok) (hx : St h x S) (hcat : Cat h x) {par : Word → List Word}
    (hp : Pars h par) {r : Word} {rc : Rec} (hr : h.recs r = some rc)
    (once : ∀ p c d A B, (∃ e ∈ x, e.col = c) → Leads (view h) r ((p, c) :: A) → Leads (view h) r ((p, d) :: B) → A.length ≤ 6 → B.length ≤ 6 →
      (view h).field p c = (view h).field p d → c = d ∧ A = B)
    (hready : ∀ e ∈ x, Ready add (S e) (fun q => ∃ c, (q, c) ∈ places h (wgIx.byCol x) par 6 r ∧ Hit h q c e)) :
    (rc.back = 0#64 → places h (wgIx.byCol x) par 6 r = []) ∧
    (rc.back ≠ 0#64 → ∃ z, visitChain h (visitParents wgIx (fieldIx (opIx add) h) h 6 r) walkFuel rc.back x = some (z, true) ∧ z.map Idx.key = x.map Idx.key ∧
      St h z (fun e => Change add (S e) (fun q => ∃ c, (q, c) ∈ places h (wgIx.byCol x) par 6 r ∧ Hit h q c e))) := by
  constructor
  · intro h0
    obtain ⟨bl, b1, b2, _⟩ := hp r rc hr
    rw [h0] at b1
    have : bl = [] := (Chain.nil_iff b1).1 rfl
    simp [places, b2, this]
  · intro h0
    rw [visitAll_eq hI (keepsCols add) hp 6 x hr h0]
    have hnd : (places h (wgIx.byCol x) par 6 r).Nodup := by
      rw [List.nodup_iff_count_le_one]
      rintro ⟨p, c⟩
      by_cases hm : (p, c) ∈ places h (wgIx.byCol x) par 6 r
      · obtain ⟨_, _, hb, _⟩ := (mem_places hp 6 hr).1 hm
        exact places_once hp 6 hr fun j A A' l1 l2 s1 s2 he => once p c j A A' (byCol_iff.1 hb) l1 l2 s1 s2 he
      · rw [List.count_eq_zero.2 hm]; omega
    have href : ∀ p c, (p, c) ∈ places h (wgIx.byCol x) par 6 r → ∀ e ∈ x, Hit h p c e → e.col = c := by
      intro p c hm e he hh
      obtain ⟨⟨rp, hrp, _⟩, _, _, A, _, hl⟩ := (mem_places hp 6 hr).1 hm
      have : ∃ w, (view h).field p c = some w ∧ isRecVal w = true := by
        cases A with
        | nil => exact ⟨r, hl, hI.recs r rc hr⟩
        | cons a t =>
          obtain ⟨q, d⟩ := a
          refine ⟨q, hl.1, ?_⟩
          have h2 := hl.2
          have : ∃ w, (view h).field q d = some w := by
            cases t with
            | nil => exact ⟨_, h2⟩
            | cons b t => exact ⟨_, h2.1⟩
          obtain ⟨w, hw⟩ := this
          obtain ⟨rq, hq, _⟩ := field_mem.1 hw
          exact hI.recs q rq hq
      obtain ⟨w, hw, hwr⟩ := this
      exact hit_ref (hcat e he) hw hwr hh
    obtain ⟨a1, a2, a3⟩ := runOps_ok hI.str hg add (places h (wgIx.byCol x) par 6 r) hS hx hcat.is_apart (by
        rintro ⟨p, c⟩ hm
        obtain ⟨⟨rp, hrp, hsp⟩, hc, _, A, _, hl⟩ := (mem_places hp 6 hr).1 hm
        refine ⟨rp, hrp, hsp, hc, ?_⟩
        have : ∃ w, (view h).field p c = some w := by
          cases A with
          | nil => exact ⟨_, hl⟩
          | cons b t => exact ⟨_, hl.1⟩
        obtain ⟨w, hw⟩ := this
        obtain ⟨rq, hq, hf⟩ := field_mem.1 hw
        rw [hrp] at hq; cases hq
        exact (List.getElem?_eq_some_iff.1 hf).1) hready (by
        refine hnd.imp_of_mem ?_
        rintro ⟨p, c⟩ ⟨q, d⟩ m1 m2 hne e he hpq h1 h2
        simp only at hpq h1 h2
        subst hpq
        have e1 := href p c m1 e he h1
        have e2 := href p d m2 e he h2
        exact hne (by rw [← e1, ← e2]))
    refine ⟨_, ?_, a2, a3⟩
    rw [← a1]

end WG.Recs
