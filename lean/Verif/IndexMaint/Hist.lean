import Verif.IndexMaint.Create
/-! # Histories of API calls on a database with T-tree indexes -/
namespace WG.Recs
open WG.TTree

variable {C : Prop}

/-- A database with indexes in a history: also the match records that were created, and the record made by wg_create_raw_record that is
being filled, with the columns that are still to be set. -/
structure ISt where
  db : Db (List Idx)
  tm : List Word
  pend : Option (Word × List Nat)

/-- API calls. -/
inductive IOp
  /-- the calls on records and values -/
  | api (op : Op)
  /-- wg_create_raw_record -/
  | raw (len : Int) (al : Option Word)
  /-- the match record of a new index template -/
  | template (vals : List Word) (al : Option Word)
  /-- wg_create_index on column `c` with match record `m` (0: no template); `rs` are the records that the scan of the database meets -/
  | index (c : Nat) (m : Word) (rs : List Word) (root : Nat)
  /-- wg_drop_index -/
  | drop (k : Nat)

/-- The columns that remain to be set. -/
def pendAfter (p : Option (Word × List Nat)) : Op → Option (Word × List Nat)
  | .setNew _ i _ _ => p.bind fun y => let t := y.2.filter (· ≠ i.toNat); if t = [] then none else some (y.1, t)
  | _ => p

/-- The match records that remain. -/
def tmAfter (tm : List Word) : Op → Out → List Word
  | .delete r, .code 0 => tm.filter (· ≠ r)
  | _, _ => tm

/-- One call. wg_create_raw_record is `createRaw` (Db/dbdata.c lines 150-193, modelled in `Verif/Records/Model.lean`). -/
def irun (s : ISt) : IOp → Option (ISt × Out)
  | .api op => (run wgIx s.db op).map fun y => (⟨y.1, tmAfter s.tm op y.2, pendAfter s.pend op⟩, y.2)
  | .raw len al =>
    let y := createRaw s.db.h len 0#64 al
    some (⟨⟨y.1, s.db.ix⟩, s.tm, if y.2 = 0#64 ∨ len = 0 then s.pend else some (y.2, List.range len.toNat)⟩, .word y.2)
  | .template vals al => (addTemplate s.db vals al).map fun y => (⟨y.1, if y.2 = 0#64 then s.tm else y.2 :: s.tm, s.pend⟩, .word y.2)
  | .index c m rs root => let y := createIndex s.db.h s.db.ix c m rs root; some (⟨⟨s.db.h, y.1⟩, s.tm, s.pend⟩, .code y.2)
  | .drop k => some (⟨⟨s.db.h, dropIndex s.db.ix k⟩, s.tm, s.pend⟩, .code 0)

/-- Correct use. As in `Pre`, objects passed are live and the allocator returns free objects. In addition: values can be ordered (`Good`);
match records are not changed or deleted while in use; while a raw record is being filled, other calls only encode or free values, and every
field is set once; and the situations in which the library is known to go wrong are excluded: references in which a record can be reached twice
from an indexed field (`Simple`), a raw record long enough for a template index (`raw`), a match record long enough for an existing index
(`template`), and the failures of `SetPre` (an allocation failure during a store of a reference, overwriting a self-reference whose backlink is first). -/
def IPre (C : Prop) (s : ISt) : IOp → Prop
  | .api (.create len bits al) => s.pend = none ∧ Pre C wgIx s.db (.create len bits al)
  | .api (.set r i v cell) => s.pend = none ∧ r ∉ s.tm ∧ (∃ rc, s.db.h.recs r = some rc) ∧ SOK s.db.h v ∧
      (isRecVal v = true → ∃ a, cell = some a ∧ s.db.h.cells a = none ∧ a ≠ 0#64) ∧
      (∀ rc, s.db.h.recs r = some rc → rc.fields[i.toNat]? = some r → carOf s.db.h rc.back ≠ r) ∧
      Good s.db.h v ∧ Simple (view s.db.h) s.db.ix r i.toNat ∧ Simple ((view s.db.h).store r i.toNat v) s.db.ix r i.toNat
  | .api (.setNew r i v cell) => 0 ≤ i ∧ (∃ todo, s.pend = some (r, todo) ∧ i.toNat ∈ todo) ∧ SOK s.db.h v ∧ Good s.db.h v ∧ v ≠ r ∧
      (isRecVal v = true → ∃ a, cell = some a ∧ s.db.h.cells a = none ∧ a ≠ 0#64)
  | .api (.delete r) => s.pend = none ∧ (∃ rc, s.db.h.recs r = some rc) ∧ ∀ e ∈ s.db.ix, e.mrec ≠ r
  | .api op => Pre C wgIx s.db op
  | .raw len al => s.pend = none ∧ (∀ o, al = some o → s.db.h.recs o = none ∧ isRecVal o = true) ∧
      ∀ e ∈ s.db.ix, len ≤ e.col ∨ ∀ c ∈ e.fixed, len ≤ (c : Int)
  | .template vals al => s.pend = none ∧ Vals s.db.h vals ∧ (∀ o, al = some o → s.db.h.recs o = none ∧ isRecVal o = true) ∧
      ∀ e ∈ s.db.ix, vals.length ≤ e.col
  | .index _ m rs root => s.pend = none ∧ (m = 0#64 ∨ m ∈ s.tm) ∧ rs.Nodup ∧ (∀ r, r ∈ rs ↔ ∃ rc, s.db.h.recs r = some rc ∧ rc.special = false) ∧ root ≠ 0
  | .drop _ => s.pend = none

/-- States reached from an empty database without indexes by correct use. -/
inductive IReach (C : Prop) : ISt → Prop
  | init (n : Nat) : IReach C ⟨⟨Heap.empty n, []⟩, [], none⟩
  | step {s s' : ISt} {op : IOp} {out : Out} : IReach C s → IPre C s op → irun s op = some (s', out) → IReach C s'

/-- Rows that are present, while a record is being filled. -/
def Guard (p : Option (Word × List Nat)) (e : Idx) (q : Word) : Prop := ∀ o todo, p = some (o, todo) → Todo o todo e q

/-- The invariant of histories. -/
structure KInv (C : Prop) (s : ISt) : Prop where
  inv : Inv C s.db.h
  good : AllGood s.db.h
  cat : Cat s.db.h s.db.ix
  tm : ∀ m ∈ s.tm, m ≠ 0#64 ∧ TmplOK s.db.h m
  used : ∀ e ∈ s.db.ix, e.mrec = 0#64 ∨ e.mrec ∈ s.tm
  pend : ∀ o todo, s.pend = some (o, todo) → Pend s.db.h s.db.ix o todo ∧ o ∉ s.tm
  rows : St s.db.h s.db.ix (fun e q => Row s.db.h e.col e.mrec q ∧ Guard s.pend e q)

/-- What the calls report: no index update ever fails. -/
def Result (T : Table) : IOp → Out → Prop
  | .api (.create len _ al), out => 0 ≤ len → out = .word (al.getD 0#64)
  | .api (.set r i _ _), out => out = .code 0 ∧ T.has r i ∨ out = .code (-2) ∧ ¬ T.has r i
  | .api (.setNew _ _ _ _), out => out = .code 0
  | .api (.delete r), out => out = .code 0 ∧ ¬ T.Refers r ∨ out = .code (-1) ∧ T.Refers r
  | .raw len al, out => 0 ≤ len → out = .word (al.getD 0#64)
  | _, _ => True

theorem KInv.iinv {s : ISt} (hk : KInv C s) (hp : s.pend = none) : IInv C s.db :=
  ⟨hk.inv, hk.good, hk.cat, fun e he => (hk.rows e he).congr fun q => by simp [Guard, hp]⟩

theorem KInv.of_iinv {s : Db (List Idx)} {tm : List Word} (hi : IInv C s) (ht : ∀ m ∈ tm, m ≠ 0#64 ∧ TmplOK s.h m) (hu : ∀ e ∈ s.ix, e.mrec = 0#64 ∨ e.mrec ∈ tm) :
    KInv C ⟨s, tm, none⟩ :=
  ⟨hi.inv, hi.good, hi.cat, ht, hu, (fun o todo e => by cases e), fun e he => (hi.rows e he).congr fun q => by simp [Guard]⟩

theorem used_key {x x' : List Idx} {tm : List Word} (hu : ∀ e ∈ x, e.mrec = 0#64 ∨ e.mrec ∈ tm) (hk : x'.map Idx.key = x.map Idx.key) :
    ∀ e ∈ x', e.mrec = 0#64 ∨ e.mrec ∈ tm := by
  intro e he
  obtain ⟨e0, h1, h2⟩ := mem_key hk he
  rw [(Idx.key_inj h2).2.1]; exact hu e0 h1

theorem tm_moves {h h' : Heap} {D : Word → Prop} {tm : List Word} (hm : Moves C h h' D) (ht : ∀ m ∈ tm, m ≠ 0#64 ∧ TmplOK h m) (hD : ∀ m ∈ tm, ¬ D m) :
    ∀ m ∈ tm, m ≠ 0#64 ∧ TmplOK h' m :=
  fun m hm' => ⟨(ht m hm').1, hm.tmplOK (ht m hm').1 (hD m hm') (ht m hm').2⟩

theorem tm_live {h : Heap} {tm : List Word} (ht : ∀ m ∈ tm, m ≠ 0#64 ∧ TmplOK h m) {o : Word} (ho : h.recs o = none) : o ∉ tm := by
  intro hm
  obtain ⟨h0, (h1 | ⟨mr, h1, _⟩), _⟩ := ht o hm
  · exact h0 h1
  · rw [ho] at h1; cases h1

/-- Calls that leave the records alone. -/
theorem KInv.quiet {s : ISt} (hk : KInv C s) {h' : Heap} (hI' : Inv C h') (hr : h'.recs = s.db.h.recs)
    (hv : ∀ w, LiveS s.db.h w → LiveS h' w → SameValue s.db.h h' w) : KInv C ⟨⟨h', s.db.ix⟩, s.tm, s.pend⟩ := by
  have hm := Moves.of_recs hk.inv hI' hr hv
  obtain ⟨a, b, c⟩ := hm.quiet hk.good hk.cat hk.rows
  refine ⟨hI', a, b, tm_moves hm hk.tm fun _ _ => id, hk.used, fun o todo e => ?_, c⟩
  obtain ⟨⟨h1, h2, h3⟩, h4⟩ := hk.pend o todo e
  refine ⟨⟨?_, h2, ?_⟩, h4⟩
  · simp only [hr]; exact h1
  · intro p c; rw [show view h' = view s.db.h from view_congr hr]; exact h3 p c

theorem istep_ok {s : ISt} (hk : KInv C s) {op : IOp} (hp : IPre C s op) :
    ∃ s' out, irun s op = some (s', out) ∧ KInv C s' ∧ Result (view s.db.h) op out := by
  obtain ⟨db, tm, pend⟩ := s
  cases op with
  | api op =>
    cases op with
    | create len bits al =>
      obtain ⟨h0, hal⟩ := hp
      have hI := hk.iinv h0
      simp only at h0; subst h0
      obtain ⟨h1, h2, h3⟩ := createRecord_ix hI len bits hal
      refine ⟨_, _, rfl, KInv.of_iinv h1 ?_ (used_key hk.used h2), fun hl => by rw [h3 hl]⟩
      have ht := hk.tm
      simp only at ht ⊢
      simp only [tmAfter]
      by_cases hl : len < 0
      · simpa [createRecord, createRaw, hl] using ht
      cases al with
      | none => simpa [createRecord, createRaw, hl] using ht
      | some o =>
        obtain ⟨a1, a2⟩ := hal o rfl
        have ho : o ≠ 0#64 := by rintro rfl; exact absurd a2 (by decide)
        have hm := create_moves (bits := bits) (n := len.toNat) hI.inv a1 a2
        have := tm_moves hm ht fun m hm' e => tm_live ht a1 (e ▸ hm')
        simpa [createRecord, createRaw, hl, ho] using this
    | set r i v cell =>
      obtain ⟨h0, hr, hrc, hv, hcell, hfirst, hg, hs1, hs2⟩ := hp
      have hI := hk.iinv h0
      simp only at h0 hr hrc hv hcell hfirst hg hs1 hs2; subst h0
      have hmrec : ∀ e ∈ db.ix, e.mrec ≠ r := by
        intro e he h1
        rcases hk.used e he with h2 | h2
        · obtain ⟨rc, hrc⟩ := hrc
          have := hk.inv.recs r rc hrc
          rw [← h1, h2] at this; exact absurd this (by decide)
        · exact hr (h1 ▸ h2)
      obtain ⟨s', code, e1, e2, e3, e4⟩ := setField_ix hI hrc hv hcell hfirst ⟨hg, hmrec, hs1, hs2⟩
      have hpre : SetPre wgIx db r i v cell := ⟨hrc, hv, hcell, (fun _ s'' e => by rw [e1] at e; cases e; rcases e2 with e2 | e2 <;> cases e2), hfirst⟩
      obtain ⟨s2, c2, f1, f2, f3⟩ := setField_ok wgIx hI.inv hpre
      rw [e1] at f1; cases f1
      refine ⟨⟨s', tm, none⟩, .code code, by simp [irun, run, e1, tmAfter, pendAfter], KInv.of_iinv e3 ?_ (used_key hk.used e4), ?_⟩
      · have hm : s'.h = db.h ∨ Moves C db.h s'.h (· = r) := by
          cases f2 with
          | refused h1 _ => exact Or.inl (by rw [h1])
          | same h1 _ _ _ => exact Or.inl (by rw [h1])
          | index h1 _ => exact Or.inl h1
          | stored h1 h2 h3 h4 h5 h6 => exact Or.inr (stored_moves hI.inv h5 h2 h3)
        rcases hm with hm | hm
        · rw [hm]; exact hk.tm
        · exact tm_moves hm hk.tm fun m hm' e => hr (e ▸ hm')
      · obtain ⟨rc, hrc⟩ := hrc
        have hhas : (view db.h).has r i ↔ ¬ code = -2 := by
          rw [f3]
          simp only [Table.has, view, hrc, Option.map_some, Option.some.injEq, exists_eq_left', not_or, not_lt, not_le]
        simp only [Result, hhas]
        rcases e2 with rfl | rfl <;> simp
    | setNew r i v cell =>
      obtain ⟨h0, ⟨todo, h1, h2⟩, hv, hg, hvr, hcell⟩ := hp
      simp only at h1 hv hg hcell; subst h1
      obtain ⟨hpend, hrtm⟩ := hk.pend r todo rfl
      have hrows : St db.h db.ix (fun e q => Row db.h e.col e.mrec q ∧ Todo r todo e q) := fun e he => (hk.rows e he).congr fun q => by
        simp [Guard]
      obtain ⟨s', e1, g1, g2, g3, g4, g5, g6, g7, _⟩ := setNew_ix hk.inv hk.good hk.cat hpend hrows h2 hv hg hvr hcell
      rw [show ((i.toNat : Nat) : Int) = i by omega] at e1
      refine ⟨⟨s', tm, pendAfter (some (r, todo)) (.setNew r i v cell)⟩, .code 0, by simp [irun, run, e1, tmAfter], ⟨g1, g2, g3, ?_, used_key hk.used g4, ?_, ?_⟩, rfl⟩
      · exact tm_moves g7 hk.tm fun m hm' e => hrtm (e ▸ hm')
      · intro o t e
        simp only [pendAfter, Option.bind_some] at e
        split_ifs at e
        cases e
        exact ⟨g5, hrtm⟩
      · refine fun e he => (g6 e he).congr fun q => and_congr_right fun _ => ?_
        simp only [Guard, pendAfter, Option.bind_some]
        by_cases ht : todo.filter (· ≠ i.toNat) = []
        · rw [if_pos ht, ht]
          simp [Todo]
        · rw [if_neg ht]
          simp
    | delete r =>
      obtain ⟨h0, hrc, hm⟩ := hp
      have hI := hk.iinv h0
      simp only at h0 hrc hm; subst h0
      obtain ⟨s', code, e1, e2, e3, e4, e5, e6⟩ := deleteRecord_ix hI hrc hm
      rcases e2 with rfl | ⟨rfl, rfl⟩
      · refine ⟨⟨s', tm.filter (· ≠ r), none⟩, .code 0, by simp [irun, run, e1, tmAfter, pendAfter], KInv.of_iinv e4 ?_ ?_, ?_⟩
        · exact tm_moves (e6 rfl) (fun m hm' => hk.tm m (List.mem_filter.1 hm').1) fun m hm' e => by
            have := (List.mem_filter.1 hm').2
            simp [e] at this
        · intro e he
          obtain ⟨e0, k1, k2⟩ := mem_key e5 he
          have k3 := (Idx.key_inj k2).2.1
          rw [k3]
          rcases hk.used e0 k1 with k4 | k4
          · exact Or.inl k4
          · exact Or.inr (List.mem_filter.2 ⟨k4, by simpa using hm e0 k1⟩)
        · exact Or.inl ⟨rfl, fun hh => by have := e3.2 hh; omega⟩
      · refine ⟨⟨s', tm, none⟩, .code (-1), by simp [irun, run, e1, tmAfter, pendAfter], hk, Or.inr ⟨rfl, e3.1 rfl⟩⟩
    | int v al =>
      obtain ⟨g1, g2, g3⟩ := encInt_ok hk.inv v hp
      exact ⟨_, _, rfl, hk.quiet g1 g2.recs (g2.stepValue hk.inv), trivial⟩
    | double v al =>
      obtain ⟨g1, g2, g3⟩ := encDouble_ok hk.inv v hp
      exact ⟨_, _, rfl, hk.quiet g1 g2.recs (g2.stepValue hk.inv), trivial⟩
    | str str lang type al =>
      obtain ⟨p1, p2, p3, p4, p5⟩ := hp
      obtain ⟨h', w, e, g1, g2, g3, _⟩ := encUnistr_ok hk.inv p1 p2 p3 (show StrType type by unfold StrType; tauto) p5
      exact ⟨⟨⟨h', db.ix⟩, tm, pend⟩, .word w, by simp [irun, run, e, tmAfter, pendAfter], hk.quiet g1 g2.recs (g2.stepValue hk.inv), trivial⟩
    | blob data lang al =>
      obtain ⟨p1, p3, p5⟩ := hp
      obtain ⟨h', w, e, g1, g2, g3, _⟩ := encUniblob_ok hk.inv p1 data p3 (show StrType 8#64 by unfold StrType; tauto) p5
      exact ⟨⟨⟨h', db.ix⟩, tm, pend⟩, .word w, by simp [irun, run, e, tmAfter, pendAfter], hk.quiet g1 g2.recs (g2.stepValue hk.inv), trivial⟩
    | free w =>
      obtain ⟨h', e, g1, g2⟩ := freeEncoded_ok hk.inv hp.1 hp.2
      exact ⟨⟨⟨h', db.ix⟩, tm, pend⟩, .code 0, by simp [irun, run, e, tmAfter, pendAfter], hk.quiet g1 g2.recs (g2.sub.stepValue g1), trivial⟩
  | raw len al =>
    obtain ⟨h0, hal, hfix⟩ := hp
    have hI := hk.iinv h0
    simp only at h0 hal hfix; subst h0
    refine ⟨_, _, rfl, ?_⟩
    simp only [createRaw]
    by_cases hl : len < 0
    · simp only [if_pos hl, true_or, if_true]
      exact ⟨hk, fun h => absurd hl (by omega)⟩
    simp only [if_neg hl]
    cases al with
    | none => simp only [true_or, if_true]; exact ⟨hk, fun _ => rfl⟩
    | some o =>
      obtain ⟨a1, a2⟩ := hal o rfl
      have ho : o ≠ 0#64 := by rintro rfl; exact absurd a2 (by decide)
      obtain ⟨h1, hh, hi, hg, hcat, hm, hno, hro, hst⟩ := created hI 0#64 len.toNat a1 a2
      simp only [← hh, ho, false_or]
      refine ⟨⟨hi, hg, hcat, tm_moves hm hk.tm fun m hm' e => tm_live hk.tm a1 (e ▸ hm'), hk.used, ?_, ?_⟩, fun _ => rfl⟩
      · intro o' todo e
        simp only at e
        split_ifs at e with hz
        cases e
        refine ⟨⟨⟨_, hro, by simp [Rec.special], fun c hc => ?_, fun e he => ?_⟩, fun e he h1 => ?_, hno⟩, tm_live hk.tm a1⟩
        · rw [List.getElem?_replicate, if_pos (List.mem_range.1 hc)]
        · simp only [List.length_replicate]
          rcases hfix e he with h1 | h1
          · left; omega
          · right; intro c hc; have := h1 c hc; omega
        · by_cases h2 : e.mrec = 0#64
          · exact ho (h1.symm.trans h2)
          · exact hI.cat.fresh a1 e he h2 h1
      · refine fun e he => (hst e he).congr fun q => and_congr_right fun hrow => ?_
        obtain ⟨rc, k1, _, k3, _⟩ := hrow
        constructor
        · intro hq o' todo e hq2
          split_ifs at e with hz
          cases e
          exact absurd hq2 hq
        · intro hq hq2
          subst hq2
          rw [hro] at k1; cases k1
          simp only [List.length_replicate] at k3
          have hz : ¬ len = 0 := by omega
          exact hq q (List.range len.toNat) (by rw [if_neg hz]) rfl (List.mem_range.2 k3)
  | template vals al =>
    obtain ⟨h0, hv, hal, hcol⟩ := hp
    have hI := hk.iinv h0
    simp only at h0 hal hcol hv; subst h0
    obtain ⟨s', o, e1, e2, e3, e4⟩ := addTemplate_ix hI hv hal hcol
    refine ⟨⟨s', if o = 0#64 then tm else o :: tm, none⟩, .word o, by simp only [irun, e1]; rfl, ?_, trivial⟩
    rcases e4 with ⟨e4, e5⟩ | ⟨e4, e5, e6, e7⟩
    · simp only [e4, if_true]
      rw [e5]; exact hk
    · simp only [e4, if_false]
      refine KInv.of_iinv e2 ?_ ?_
      · intro m hm'
        rcases List.mem_cons.1 hm' with rfl | hm'
        · exact ⟨e4, e5⟩
        · exact tm_moves e6 hk.tm (fun m hm' e => tm_live hk.tm e7 (e ▸ hm')) m hm'
      · intro e he
        rcases used_key hk.used e3 e he with h1 | h1
        · exact Or.inl h1
        · exact Or.inr (List.mem_cons_of_mem _ h1)
  | index c m rs root =>
    obtain ⟨h0, hm, hnd, hrs, hroot⟩ := hp
    have hI := hk.iinv h0
    simp only at h0 hm hrs; subst h0
    obtain ⟨e1, e2⟩ := createIndex_ix hI (c := c) (m := m) (by rcases hm with hm | hm; exact Or.inl hm; exact Or.inr (hk.tm m hm)) hnd hrs hroot
    refine ⟨_, _, rfl, KInv.of_iinv e1 hk.tm ?_, trivial⟩
    rcases e2 with ⟨_, e2⟩ | ⟨_, e, e2, e3, e4⟩
    · simp only [e2]; exact hk.used
    · simp only [e2]
      intro e' he'
      rcases List.mem_cons.1 he' with rfl | he'
      · rw [e4]; exact hm
      · exact hk.used e' he'
  | drop k =>
    have hI := hk.iinv hp
    simp only [IPre] at hp; subst hp
    have hsub : ∀ e ∈ dropIndex db.ix k, e ∈ db.ix := fun e he => (List.eraseIdx_subset he)
    exact ⟨_, _, rfl, KInv.of_iinv ⟨hI.inv, hI.good, fun e he => hI.cat e (hsub e he), fun e he => hI.rows e (hsub e he)⟩ hk.tm (fun e he => hk.used e (hsub e he)), trivial⟩

theorem ireach_inv {s : ISt} (hs : IReach C s) : KInv C s := by
  induction hs with
  | init n =>
    refine ⟨inv_empty n, ?_, (fun e he => by cases he), (fun m hm => by cases hm), (fun e he => by cases he), (fun o t e => by cases e), (fun e he => by cases he)⟩
    intro p c w hw
    simp [Table.field, view, Heap.empty] at hw
  | step _ hp he ih =>
    obtain ⟨s1, o1, e1, ok, _⟩ := istep_ok ih hp
    rw [he] at e1; cases e1
    exact ok

end WG.Recs
