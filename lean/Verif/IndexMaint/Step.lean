import Verif.IndexMaint.Move
/-! # Indexes after an update of a field -/
namespace WG.Recs
open WG.TTree

variable {C : Prop} {h h' : Heap}

/-! ### Backlinks are not read by the index functions -/

theorem reader_same (hs : SameStr h h') (hr : SameRecs h h') : h'.reader = h.reader := by
  have hv : ∀ w, (h'.recs w).map (·.fields) = (h.recs w).map (·.fields) := hr.fields
  have e1 : h'.reader.len = h.reader.len := by
    funext w
    have := hv w
    simp only [Heap.reader]
    cases a : h'.recs w <;> cases b : h.recs w <;> simp [a, b] at this ⊢
    rw [this]
  have e2 : h'.reader.fields = h.reader.fields := by
    funext w
    simp only [Heap.reader, hv]
  obtain ⟨s1, s2, s3, s4, s5, s6⟩ := hs
  cases h; cases h'
  simp only at s1 s2 s3 s4 s5 s6
  subst s1 s2 s3 s4 s5 s6
  simp only [Heap.reader, Reader.mk.injEq] at e1 e2 ⊢
  refine ⟨?_, ?_, ?_, ?_, ?_, ?_, ?_, ?_, ?_⟩ <;> first | trivial | rfl | exact e1 | exact e2

theorem matchTemplate_same (hs : SameStr h h') (hr : SameRecs h h') (m r : Word) : matchTemplate h' m r = matchTemplate h m r := by
  have hm : ∀ es ws : List Word, matchFields h' es ws = matchFields h es ws := by
    intro es
    induction es with
    | nil => intro ws; simp [matchFields]
    | cons e es ih =>
      intro ws
      cases ws with
      | nil => simp [matchFields]
      | cons w ws =>
        have e1 : isFixedVal h' e = isFixedVal h e := by unfold isFixedVal; rw [reader_same hs hr]
        rw [matchFields, matchFields, e1, reader_same hs hr, ih]
  unfold matchTemplate
  split_ifs
  · rfl
  · cases a : h.recs m with
    | none => rw [(hr m).1 a]
    | some mr =>
      obtain ⟨b, eb⟩ := (hr m).2 mr a
      cases a2 : h.recs r with
      | none => rw [(hr r).1 a2, eb]
      | some rc =>
        obtain ⟨b2, eb2⟩ := (hr r).2 rc a2
        rw [eb, eb2]
        simp only [hm]

theorem idxEnv_same (hs : SameStr h h') (hr : SameRecs h h') (c : Nat) : idxEnv h' c = idxEnv h c := by
  unfold idxEnv
  rw [reader_same hs hr]
  congr 1
  funext n
  simp only [getField]
  cases a : h.recs (BitVec.ofNat 64 n) with
  | none => rw [(hr _).1 a]
  | some mr => obtain ⟨b, eb⟩ := (hr _).2 mr a; rw [eb]; rfl

theorem opIx_same (hs : SameStr h h') (hr : SameRecs h h') (add : Bool) (r : Word) (e : Idx) : opIx add h' r e = opIx add h r e := by
  cases add <;> simp only [opIx, if_true, Bool.false_eq_true, if_false, addRowIx, delRowIx, idxEnv_same hs hr]

theorem fieldIx_same (hs : SameStr h h') (hr : SameRecs h h') (add : Bool) (x : List Idx) (r : Word) (c : Nat) :
    fieldIx (opIx add) h' x r c = fieldIx (opIx add) h x r c := by
  have e1 : opIx add h' r = opIx add h r := funext (opIx_same hs hr add r)
  unfold fieldIx
  cases a : h.recs r with
  | none => rw [(hr r).1 a]
  | some rc =>
    obtain ⟨b, eb⟩ := (hr r).2 rc a
    rw [eb]
    simp only [matchTemplate_same hs hr, e1, Rec.special]

theorem Stored.alike {h3 h4 : Heap} {r : Word} {i : Nat} {v : Word} (a : Stored h h3 r i v) (b : Stored h h4 r i v) : SameRecs h3 h4 := by
  intro p
  cases e : h.recs p with
  | none =>
    refine ⟨fun _ => (b p).1 e, fun rc hrc => ?_⟩
    rw [(a p).1 e] at hrc; cases hrc
  | some rc =>
    obtain ⟨b1, e1⟩ := (a p).2 rc e
    obtain ⟨b2, e2⟩ := (b p).2 rc e
    rw [e1, e2]
    refine ⟨(fun e => by cases e), fun rc' hrc => ?_⟩
    cases hrc
    exact ⟨b2, rfl⟩

/-! ### Chains of references -/

theorem leads_congr {T T' : Table} {r : Word} : ∀ {L : List (Word × Nat)}, (∀ a ∈ L, T'.field a.1 a.2 = T.field a.1 a.2) → Leads T r L → Leads T' r L
  | [], _, hl => hl
  | [(p, c)], he, hl => by
    have := he (p, c) (by simp)
    simp only [Leads] at hl ⊢
    rw [this]; exact hl
  | (p, c) :: (q, d) :: t, he, hl => by
    have := he (p, c) (by simp)
    refine ⟨?_, leads_congr (fun a ha => he a (List.mem_cons_of_mem _ ha)) hl.2⟩
    rw [this]; exact hl.1

theorem leads_split {T : Table} {r q : Word} {j : Nat} {E : List (Word × Nat)} : ∀ {B : List (Word × Nat)}, B ≠ [] → Leads T r (B ++ (q, j) :: E) → Leads T q B
  | [], h0, _ => absurd rfl h0
  | [(p, c)], _, hl => hl.1
  | (p, c) :: (p', c') :: t, _, hl => ⟨hl.1, leads_split (B := (p', c') :: t) (by simp) hl.2⟩

/-- A change of a field that reindexing concerns does not change which indexed fields lead to its record. -/
theorem leads_keep {T T' : Table} {x : List Idx} {r : Word} {i : Nat} (hs : Simple T x r i) (he : ∀ p c, ¬ (p = r ∧ c = i) → T'.field p c = T.field p c)
    {p : Word} {c : Nat} {A : List (Word × Nat)} (hc : ∃ e ∈ x, e.col = c) (hA : A.length ≤ 6) (hl : Leads T r ((p, c) :: A)) : Leads T' r ((p, c) :: A) := by
  refine leads_congr (fun a ha => he a.1 a.2 ?_) hl
  rintro ⟨h1, h2⟩
  obtain ⟨q, j⟩ := a
  simp only at h1 h2
  subst h1 h2
  obtain ⟨B, E, hBE⟩ := List.append_of_mem ha
  cases B with
  | nil =>
    simp only [List.nil_append, List.cons.injEq, Prod.mk.injEq] at hBE
    obtain ⟨⟨rfl, rfl⟩, rfl⟩ := hBE
    obtain ⟨e, h3, rfl⟩ := hc
    exact hs.self e h3 (Or.inl rfl) A hA hl
  | cons b B =>
    simp only [List.cons_append, List.cons.injEq] at hBE
    obtain ⟨rfl, hA2⟩ := hBE
    rw [hA2] at hl
    have h4 := leads_split (B := (p, c) :: B) (by simp) hl
    rw [← hA2] at hl
    have := (hs.once p c c A B hc hl h4 hA (by rw [hA2] at hA; simp at hA; omega) rfl).2
    rw [this] at hA2
    have := congrArg List.length hA2
    simp at this

/-! ### Update of a field -/

theorem stored_field {r : Word} {i : Nat} {v : Word} (hs : Stored h h' r i v) (p : Word) (c : Nat) (hn : ¬ (p = r ∧ c = i)) :
    (view h').field p c = (view h).field p c := by
  rw [view_stored hs]
  simp only [Table.field, Table.store]
  by_cases hp : p = r
  · subst hp
    simp only [if_true]
    cases view h p with
    | none => rfl
    | some fs =>
      simp only [Option.map_some, Option.bind_some]
      exact List.getElem?_set_ne (fun e => hn ⟨rfl, e.symm⟩)
  · rw [if_neg hp]

theorem stored_moves (hI : Inv C h) (hI' : Inv C h') {r : Word} {i : Nat} {v : Word} (hs : Stored h h' r i v) (hsub : Sub h h') : Moves C h h' (· = r) := by
  refine ⟨hI.str, hI'.str, fun w => hsub.stepValue hI' w, fun p hp => ⟨(hs p).1, fun rc hrc => ?_⟩⟩
  obtain ⟨b, e⟩ := (hs p).2 rc hrc
  rw [if_neg hp] at e
  exact ⟨b, e⟩

theorem change_pure {S S' L L' : Prop} {Q K : Prop} (hL : L' ↔ L) (hS : ¬ (Q ∧ K) → (S' ↔ S)) (hQ : Q → K → ¬ L) :
    ((((S ∧ ¬ (Q ∧ K ∧ S)) ∧ ¬ (L ∧ S)) ∨ (Q ∧ K ∧ S')) ∨ (L' ∧ S')) ↔ S' := by
  by_cases hq : Q ∧ K
  · have := hQ hq.1 hq.2
    obtain ⟨a, b⟩ := hq
    simp [a, b, this, hL]
  · have e := hS hq
    rw [hL]
    constructor
    · rintro ((⟨⟨a, _⟩, _⟩ | ⟨a, b, c⟩) | ⟨a, b⟩)
      · exact e.2 a
      · exact c
      · exact b
    · intro h
      by_cases l : L
      · exact Or.inr ⟨l, h⟩
      · exact Or.inl (Or.inl ⟨⟨e.1 h, fun q => hq ⟨q.1, q.2.1⟩⟩, fun q => l q.1⟩)

/-- What a call of wg_set_field must meet for the indexes to follow it. -/
structure IxPre (s : Db (List Idx)) (r : Word) (i : Nat) (v : Word) : Prop where
  good : Good s.h v
  mrec : ∀ e ∈ s.ix, e.mrec ≠ r
  old : Simple (view s.h) s.ix r i
  new : Simple ((view s.h).store r i v) s.ix r i

theorem Simple.key {T : Table} {x x' : List Idx} {r : Word} {i : Nat} (hs : Simple T x r i) (hk : x'.map Idx.key = x.map Idx.key) : Simple T x' r i := by
  refine ⟨fun p c d A B he => hs.once p c d A B ?_, fun e' he hc => ?_⟩
  · obtain ⟨e', h1, h2⟩ := he
    obtain ⟨e, h3, h4⟩ := mem_key hk h1
    exact ⟨e, h3, by rw [← (Idx.key_inj h4).1]; exact h2⟩
  · obtain ⟨e, h3, h4⟩ := mem_key hk he
    obtain ⟨a, b, c⟩ := Idx.key_inj h4
    rw [a, c] at hc
    rw [a]; exact hs.self e h3 hc

theorem setField_ix {s : Db (List Idx)} (hI : IInv C s) {r : Word} {i : Int} {v : Word} {cell : Option Word} (hrcd : ∃ rc, s.h.recs r = some rc)
    (hval : SOK s.h v) (hcell : isRecVal v = true → ∃ a, cell = some a ∧ s.h.cells a = none ∧ a ≠ 0#64)
    (hfirst : ∀ rc, s.h.recs r = some rc → rc.fields[i.toNat]? = some r → carOf s.h rc.back ≠ r) (hp : IxPre s r i.toNat v) :
    ∃ s' code, setField wgIx s r i v cell = some (s', code) ∧ (code = 0 ∨ code = -2) ∧ IInv C s' ∧ s'.ix.map Idx.key = s.ix.map Idx.key := by
  obtain ⟨rc, hr⟩ := hrcd
  obtain ⟨h, x⟩ := s
  obtain ⟨hInv, hg, hcat, hrows⟩ := hI
  simp only at hInv hg hcat hrows hr hval hcell hfirst
  simp only [setField, hr]
  by_cases hi : i < 0 ∨ (rc.fields.length : Int) ≤ i
  · rw [if_pos hi]
    exact ⟨_, _, rfl, Or.inr rfl, ⟨hInv, hg, hcat, hrows⟩, rfl⟩
  rw [if_neg hi]
  have hilt : i.toNat < rc.fields.length := by omega
  have hget : rc.fields[i.toNat]? = some (rc.fields.getD i.toNat 0#64) := by
    rw [List.getD_eq_getElem?_getD, List.getElem?_eq_getElem hilt]; rfl
  generalize hold : rc.fields.getD i.toNat 0#64 = old at hget
  generalize i.toNat = i at *
  by_cases hov : old = v
  · rw [if_pos hov]
    exact ⟨_, _, rfl, Or.inl rfl, ⟨hInv, hg, hcat, hrows⟩, rfl⟩
  rw [if_neg hov]
  obtain ⟨par, hpar⟩ := hInv.pars
  -- the record itself leaves the indexes
  have hready1 : ∀ e ∈ x, Ready false (Row h e.col e.mrec) (fun q => q = r ∧ Hit h r i e) := by
    rintro e he q ⟨rfl, hh⟩
    exact ((hit_row (hcat e he)).1 hh).2
  obtain ⟨y, hy⟩ : ∃ y, y = if touches wgIx x rc i then fieldIx (opIx false) h x r i else (x, 0) := ⟨_, rfl⟩
  obtain ⟨y1, y2, y3⟩ := touch_ok hInv.str hg false (rowsOk h) hrows hcat hr hilt hready1 hy
  have hS1 := (rowsOk h).change (hitOk h r i) false
  have hcat1 : Cat h y.1 := hcat.key y2
  have hB1 := byCol_key y2
  -- the records above leave the indexes
  have hsimp1 : Simple (view h) y.1 r i := hp.old.key y2
  have hplace : ∀ q c, (q, c) ∈ places h (wgIx.byCol y.1) par 6 r → ∃ A, A.length ≤ 6 ∧ Leads (view h) r ((q, c) :: A) := by
    intro q c hm
    obtain ⟨_, _, _, A, h1, h2⟩ := (mem_places hpar 6 hr).1 hm
    exact ⟨A, h1, h2⟩
  have href : ∀ {h : Heap} {q : Word} {c : Nat} {A : List (Word × Nat)}, Inv C h → (∃ rc, h.recs r = some rc) → Leads (view h) r ((q, c) :: A) →
      ∃ w, (view h).field q c = some w ∧ isRecVal w = true := by
    rintro h q c A hI ⟨rc, hr⟩ hl
    cases A with
    | nil => exact ⟨r, hl, hI.recs r rc hr⟩
    | cons a t =>
      obtain ⟨p, d⟩ := a
      refine ⟨p, hl.1, ?_⟩
      have h2 := hl.2
      have : ∃ w, (view h).field p d = some w := by
        cases t with
        | nil => exact ⟨_, h2⟩
        | cons b t => exact ⟨_, h2.1⟩
      obtain ⟨w, hw⟩ := this
      obtain ⟨rq, hq, _⟩ := field_mem.1 hw
      exact hI.recs p rq hq
  have hready2 : ∀ e ∈ y.1, Ready false (Change false (Row h e.col e.mrec) (fun q => q = r ∧ Hit h r i e))
      (fun q => ∃ c, (q, c) ∈ places h (wgIx.byCol y.1) par 6 r ∧ Hit h q c e) := by
    rintro e he q ⟨c, hm, hh⟩
    obtain ⟨A, hA, hl⟩ := hplace q c hm
    obtain ⟨w, hw, hwr⟩ := href hInv ⟨rc, hr⟩ hl
    have hc : e.col = c := hit_ref (hcat1 e he) hw hwr hh
    refine ⟨((hit_row (hcat1 e he)).1 hh).2, ?_⟩
    rintro ⟨rfl, hh2⟩
    exact hsimp1.self e he ((hit_row (hcat1 e he)).1 hh2).1 A hA (by rw [hc]; exact hl)
  obtain ⟨v1, v2⟩ := visit_ok hInv hg false hS1 y3 hcat1 hpar hr hsimp1.once hready2
  obtain ⟨x2, hfor, k2, st2⟩ : ∃ x2, forgetField wgIx ⟨h, x⟩ r i rc = some (x2, 0) ∧ x2.map Idx.key = y.1.map Idx.key ∧
      St h x2 (fun e => Change false (Change false (Row h e.col e.mrec) (fun q => q = r ∧ Hit h r i e))
        (fun q => ∃ c, (q, c) ∈ places h (wgIx.byCol y.1) par 6 r ∧ Hit h q c e)) := by
    simp only [forgetField]
    have hdel : wgIx.delField = fieldIx (opIx false) := rfl
    rw [hdel, ← hy, if_neg (by rw [y1]; decide)]
    by_cases hb : rc.back = 0#64
    · rw [if_pos hb]
      refine ⟨_, rfl, rfl, fun e he => (y3 e he).congr fun q => ?_⟩
      rw [v1 hb]
      simp [Change]
    · rw [if_neg hb]
      obtain ⟨z, z1, z2, z3⟩ := v2 hb
      rw [z1]
      exact ⟨z, rfl, z2, z3⟩
  rw [hfor]
  simp only
  rw [if_neg (by simp)]
  -- the heap changes
  obtain ⟨h3, g1, g2, g3, g4, g5, g6, ⟨rc3, g7, g8⟩, g9⟩ := replaceField_ok hInv hr hget hval
  rw [g1]
  simp only
  obtain ⟨h4, f1, f2, f3, f4, f5⟩ := hInv.stored hr hget hval g2 g3 g4
    (cell := cell) (fun e => by obtain ⟨q, a, b, c⟩ := hcell e; exact ⟨q, a, g6 q b, c⟩)
  have g8' : rc3.back = rc.back := by
    rcases g8 with g8 | ⟨a, b⟩
    · exact g8
    · exact absurd b (hfirst rc hr (by rw [hget, a]))
  obtain ⟨rc4, f6, f7⟩ := f5 rc3 g7
  have hsub : Sub h h4 := g5.trans f4.sub
  have hmv := stored_moves hInv f2 f3 hsub
  have hsame : SameRecs h3 h4 := g4.alike f3
  have hT := view_stored f3
  have hfld := stored_field f3
  have hvlive : LiveS h4 v := by
    refine field_live (p := r) (c := i) f2.str ?_
    rw [hT]
    simp [Table.field, Table.store, view, hr, List.getElem?_set_self hilt]
  have hg4 : AllGood h4 := by
    refine hmv.allGood hg fun p c w hw => ?_
    by_cases hpc : p = r ∧ c = i
    · right
      obtain ⟨rfl, rfl⟩ := hpc
      rw [hT] at hw
      simp [Table.field, Table.store, view, hr, List.getElem?_set_self hilt] at hw
      subst hw
      exact hp.good.congr (hmv.value v hval.live hvlive)
    · left
      rw [hfld p c hpc] at hw
      exact ⟨p, c, hw⟩
  have k2' : x2.map Idx.key = x.map Idx.key := k2.trans y2
  have hcat2 : Cat h x2 := hcat.key k2'
  have hmrec : ∀ e ∈ x2, e.mrec ≠ r := by
    intro e he
    obtain ⟨e0, h1, h2⟩ := mem_key k2' he
    rw [(Idx.key_inj h2).2.1]
    exact hp.mrec e0 h1
  have hcat4 : Cat h4 x2 := fun e he => hmv.idxOK (hcat2 e he) fun _ => hmrec e he
  have hsimp0 : Simple (view h) x2 r i := hp.old.key k2'
  have hsimp4 : Simple (view h4) x2 r i := by rw [hT]; exact hp.new.key k2'
  have hB2 : wgIx.byCol x2 = wgIx.byCol y.1 := byCol_key k2
  -- membership in the list of places
  have hL0 : ∀ e ∈ x2, ∀ q rq, h.recs q = some rq → rq.special = false →
      ((q, e.col) ∈ places h (wgIx.byCol y.1) par 6 r ↔ ∃ A, A.length ≤ 6 ∧ Leads (view h) r ((q, e.col) :: A)) := by
    intro e he q rq hq hsp
    rw [mem_places hpar 6 hr]
    constructor
    · rintro ⟨_, _, _, h1⟩; exact h1
    · intro h1
      exact ⟨⟨rq, hq, hsp⟩, (hcat2 e he).col, by rw [← hB2]; exact byCol_iff.2 ⟨e, he, rfl⟩, h1⟩
  have hst : St h4 x2 (fun e => Change false (Change false (Row h e.col e.mrec) (fun q => q = r ∧ Hit h r i e))
        (fun q => ∃ c, (q, c) ∈ places h (wgIx.byCol y.1) par 6 r ∧ Hit h q c e)) := by
    refine hmv.st hg4 st2 fun e he q hq => ?_
    obtain ⟨⟨hrow, n1⟩, n2⟩ := hq
    obtain ⟨rq, hrq, hsp, hlen, _⟩ := id hrow
    have hn1 : ¬ (q = r ∧ e.col = i) := by
      rintro ⟨rfl, hc⟩
      exact n1 ⟨rfl, (hit_row (hcat2 e he)).2 ⟨Or.inl hc, hrow⟩⟩
    refine ⟨_, field_col hrq hlen, by rw [hfld q e.col hn1]; exact field_col hrq hlen, ?_⟩
    refine far_of_leads 7 (field_col hrq hlen) fun A hA hl => n2 ⟨e.col, ?_, (hit_row (hcat2 e he)).2 ⟨Or.inl rfl, hrow⟩⟩
    exact (hL0 e he q rq hrq hsp).2 ⟨A, by omega, hl⟩
  -- the record itself enters
  obtain ⟨par4, hpar4⟩ := f2.pars
  have hr4 := f6
  have hlen4 : rc4.fields.length = rc.fields.length := by
    obtain ⟨b, e⟩ := (f3 r).2 rc hr
    rw [f6] at e; cases e; simp
  have hready3 : ∀ e ∈ x2, Ready true (Change false (Change false (Row h e.col e.mrec) (fun q => q = r ∧ Hit h r i e))
        (fun q => ∃ c, (q, c) ∈ places h (wgIx.byCol y.1) par 6 r ∧ Hit h q c e)) (fun q => q = r ∧ Hit h4 r i e) := by
    rintro e he q ⟨rfl, hh⟩ ⟨⟨hrow, n1⟩, _⟩
    exact n1 ⟨rfl, (hit_row (hcat2 e he)).2 ⟨((hit_row (hcat4 e he)).1 hh).1, hrow⟩⟩
  have hS2 := hS1.change (hitsOk h (places h (wgIx.byCol y.1) par 6 r)) false
  obtain ⟨t, ht⟩ : ∃ t, t = if touches wgIx x2 rc4 i then fieldIx (opIx true) h4 x2 r i else (x2, 0) := ⟨_, rfl⟩
  obtain ⟨t1, t2, t3⟩ := touch_ok f2.str hg4 true hS2 hst hcat4 hr4 (by rw [hlen4]; exact hilt) hready3 ht
  have hsp4 : rc4.special = rc3.special := by
    obtain ⟨b, e⟩ := (hsame r).2 rc3 g7
    rw [f6] at e; cases e; rfl
  have haft : afterStore wgIx h3 x2 r i v cell = some (⟨h4, t.1⟩, none) := by
    simp only [afterStore, g7]
    have hadd : wgIx.addField = fieldIx (opIx true) := rfl
    have htou : touches wgIx x2 rc3 i = touches wgIx x2 rc4 i := by simp only [touches, hsp4]
    rw [hadd, ← fieldIx_same f4 hsame, htou, ← ht, if_neg (by rw [t1]; decide)]
    by_cases hv : isRecVal v = true
    · rw [if_pos hv] at f1 ⊢
      rw [f1]; rfl
    · rw [if_neg hv] at f1 ⊢
      cases f1; rfl
  rw [haft]
  simp only
  -- the records above enter
  have hcat5 : Cat h4 t.1 := hcat4.key t2
  have hsimp5 : Simple (view h4) t.1 r i := hsimp4.key t2
  have hB5 : wgIx.byCol t.1 = wgIx.byCol y.1 := (byCol_key t2).trans hB2
  have hL4 : ∀ q c, (q, c) ∈ places h4 (wgIx.byCol t.1) par4 6 r ↔ (q, c) ∈ places h (wgIx.byCol y.1) par 6 r := by
    intro q c
    rw [mem_places hpar4 6 hr4, mem_places hpar 6 hr, hB5]
    have hlive : (∃ rp, h4.recs q = some rp ∧ rp.special = false) ↔ (∃ rp, h.recs q = some rp ∧ rp.special = false) := by
      constructor
      · rintro ⟨rp, h1, h2⟩
        cases e : h.recs q with
        | none => rw [(f3 q).1 e] at h1; cases h1
        | some rq => obtain ⟨b, e2⟩ := (f3 q).2 rq e; rw [h1] at e2; cases e2; exact ⟨rq, rfl, h2⟩
      · rintro ⟨rp, h1, h2⟩
        obtain ⟨b, e2⟩ := (f3 q).2 rp h1
        exact ⟨_, e2, h2⟩
    rw [hlive]
    refine and_congr_right fun _ => and_congr_right fun _ => and_congr_right fun hb => ?_
    rw [← hB2] at hb
    have hc := byCol_iff.1 hb
    constructor
    · rintro ⟨A, a1, a2⟩
      exact ⟨A, a1, leads_keep hsimp4 (fun p c hn => (hfld p c hn).symm) hc a1 a2⟩
    · rintro ⟨A, a1, a2⟩
      exact ⟨A, a1, leads_keep hsimp0 hfld hc a1 a2⟩
  have hready4 : ∀ e ∈ t.1, Ready true (Change true (Change false (Change false (Row h e.col e.mrec) (fun q => q = r ∧ Hit h r i e))
        (fun q => ∃ c, (q, c) ∈ places h (wgIx.byCol y.1) par 6 r ∧ Hit h q c e)) (fun q => q = r ∧ Hit h4 r i e))
        (fun q => ∃ c, (q, c) ∈ places h4 (wgIx.byCol t.1) par4 6 r ∧ Hit h4 q c e) := by
    rintro e he q ⟨c, hm, hh⟩
    obtain ⟨e2, he2, hk2⟩ := mem_key t2 he
    have hok : IdxOK h e := (hcat2 e2 he2).key hk2
    have hok4 := hcat5 e he
    obtain ⟨_, _, _, A, hA, hl⟩ := (mem_places hpar4 6 hr4).1 hm
    obtain ⟨w, hw, hwr⟩ := href f2 ⟨rc4, hr4⟩ hl
    have hc : e.col = c := hit_ref hok4 hw hwr hh
    rintro (⟨⟨hrow, _⟩, n2⟩ | ⟨rfl, hh2⟩)
    · exact n2 ⟨c, (hL4 q c).1 hm, (hit_row hok).2 ⟨Or.inl hc, hrow⟩⟩
    · exact hsimp5.self e he ((hit_row hok4).1 hh2).1 A hA (by rw [hc]; exact hl)
  obtain ⟨w1, w2⟩ := visit_ok f2 hg4 true (hS2.change (hitOk h4 r i) true) t3 hcat5 hpar4 hr4 hsimp5.once hready4
  obtain ⟨x5, hres, k5, st5⟩ : ∃ x5, restoreParents wgIx h4 t.1 r rc.back = some (⟨h4, x5⟩, 0) ∧ x5.map Idx.key = t.1.map Idx.key ∧
      St h4 x5 (fun e => Change true (Change true (Change false (Change false (Row h e.col e.mrec) (fun q => q = r ∧ Hit h r i e))
        (fun q => ∃ c, (q, c) ∈ places h (wgIx.byCol y.1) par 6 r ∧ Hit h q c e)) (fun q => q = r ∧ Hit h4 r i e))
        (fun q => ∃ c, (q, c) ∈ places h4 (wgIx.byCol t.1) par4 6 r ∧ Hit h4 q c e)) := by
    unfold restoreParents
    by_cases hb : rc.back = 0#64
    · rw [if_pos hb]
      have hempty : places h4 (wgIx.byCol t.1) par4 6 r = [] := by
        apply List.eq_nil_iff_forall_not_mem.2
        rintro ⟨q, c⟩ hm
        have := (hL4 q c).1 hm
        rw [v1 hb] at this
        cases this
      refine ⟨_, rfl, rfl, fun e he => (t3 e he).congr fun q => ?_⟩
      rw [hempty]
      simp [Change]
    · rw [if_neg hb]
      have hb4 : rc4.back = rc.back := by
        rcases f7 with e | e
        · rw [e, g8']
        · rw [g8'] at e; exact absurd e hb
      obtain ⟨z, z1, z2, z3⟩ := w2 (by rw [hb4]; exact hb)
      rw [hb4] at z1
      have hadd : wgIx.addField = fieldIx (opIx true) := rfl
      rw [hadd, z1]
      exact ⟨z, rfl, z2, z3⟩
  have k5' : x5.map Idx.key = x2.map Idx.key := k5.trans t2
  refine ⟨_, _, hres, Or.inl rfl, ⟨f2, hg4, hcat4.key k5', fun e he => (st5 e he).congr fun q => ?_⟩, k5'.trans k2'⟩
  obtain ⟨e2, he2, hk2⟩ := mem_key k5' he
  have hok : IdxOK h e := (hcat2 e2 he2).key hk2
  have hok4 : IdxOK h4 e := (hcat4 e2 he2).key hk2
  obtain ⟨c1, c2, c3⟩ := Idx.key_inj hk2
  have hP2 : (∃ c, (q, c) ∈ places h (wgIx.byCol y.1) par 6 r ∧ Hit h q c e) ↔ (q, e.col) ∈ places h (wgIx.byCol y.1) par 6 r ∧ Row h e.col e.mrec q := by
    constructor
    · rintro ⟨c, hm, hh⟩
      obtain ⟨A, hA, hl⟩ := hplace q c hm
      obtain ⟨w, hw, hwr⟩ := href hInv ⟨rc, hr⟩ hl
      have hc : e.col = c := hit_ref hok hw hwr hh
      rw [hc]
      exact ⟨hm, by rw [← hc]; exact ((hit_row hok).1 hh).2⟩
    · rintro ⟨hm, hrow⟩
      exact ⟨e.col, hm, (hit_row hok).2 ⟨Or.inl rfl, hrow⟩⟩
  have hP4 : (∃ c, (q, c) ∈ places h4 (wgIx.byCol t.1) par4 6 r ∧ Hit h4 q c e) ↔
      (q, e.col) ∈ places h4 (wgIx.byCol t.1) par4 6 r ∧ Row h4 e.col e.mrec q := by
    constructor
    · rintro ⟨c, hm, hh⟩
      obtain ⟨_, _, _, A, hA, hl⟩ := (mem_places hpar4 6 hr4).1 hm
      obtain ⟨w, hw, hwr⟩ := href f2 ⟨rc4, hr4⟩ hl
      have hc : e.col = c := hit_ref hok4 hw hwr hh
      rw [hc]
      exact ⟨hm, by rw [← hc]; exact ((hit_row hok4).1 hh).2⟩
    · rintro ⟨hm, hrow⟩
      exact ⟨e.col, hm, (hit_row hok4).2 ⟨Or.inl rfl, hrow⟩⟩
  have hP1 : (q = r ∧ Hit h r i e) ↔ q = r ∧ (e.col = i ∨ i ∈ e.fixed) ∧ Row h e.col e.mrec q := by
    refine and_congr_right fun hq => ?_
    subst hq; exact hit_row hok
  have hP3 : (q = r ∧ Hit h4 r i e) ↔ q = r ∧ (e.col = i ∨ i ∈ e.fixed) ∧ Row h4 e.col e.mrec q := by
    refine and_congr_right fun hq => ?_
    subst hq; exact hit_row hok4
  simp only [Change, if_true, Bool.false_eq_true, if_false]
  rw [hP1, hP2, hP3, hP4]
  refine change_pure (hL4 q e.col) ?_ ?_
  · intro hn
    have hmr : e.mrec ≠ 0#64 → ¬ e.mrec = r := fun _ => by rw [c2]; exact hmrec e2 he2
    by_cases hq : q = r
    · subst hq
      have hn' : ¬ (e.col = i ∨ i ∈ e.fixed) := fun k => hn ⟨rfl, k⟩
      have hm := hmv.matches hok hmr hr hr4 (fun c hc => by
        have := hfld q c (fun e => hn' (Or.inr (by rw [← e.2]; exact hc)))
        simpa [Table.field, view, hr, hr4] using this)
      have hsp : rc4.special = rc.special := by
        obtain ⟨b, e⟩ := (f3 q).2 rc hr
        rw [hr4] at e; cases e; rfl
      simp only [Row, hr, hr4, Option.some.injEq, exists_eq_left', hsp, hlen4, hm]
    · exact hmv.row hok hmr hq
  · intro hq hk hm
    subst hq
    obtain ⟨A, hA, hl⟩ := hplace q e.col hm
    have := hsimp0.self e2 he2 (by rw [← c1, ← c3]; exact hk) A hA
    rw [← c1] at this
    exact this hl

end WG.Recs
