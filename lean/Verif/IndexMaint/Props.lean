import Verif.IndexMaint.Hist
import Verif.Query.Props
/-!
# Properties: index maintenance (C28, and C25 and C27 for databases with a history)

The property that each index contains exactly the rows it should is partial: `IPre` excludes the situations in which the library goes wrong. Each
of them has a counterexample theorem in `Verif/IndexMaint/Counter.lean`.
-/
namespace WG.Recs
open WG.TTree

variable {C : Prop}

theorem ofNat_toNat {n : Nat} (hn : n < 2 ^ 64) : (BitVec.ofNat 64 n).toNat = n := by
  rw [BitVec.toNat_ofNat]; exact Nat.mod_eq_of_lt hn

/-- C28: after any history of correct calls that create, fill, change and delete records, create and drop indexes, every T-tree
index, walked forwards, has exactly the data records that are long enough for its column and match its template, each once, in the
order of the values of the column; walked backwards it has them in the reverse order. What is missing from the full property: the histories that
`IPre` excludes (counterexamples below). -/
theorem C28_index_exact_partial {s : ISt} (hs : IReach C s) (hp : s.pend = none) {e : Idx} (he : e ∈ s.db.ix) :
    ∃ rows : List Word, (∀ k, rows.length + 2 ≤ k → walk e.st k e.st.minN = rows.map (·.toNat) ∧ walkBack e.st k e.st.maxN = (rows.map (·.toNat)).reverse) ∧
      rows.Nodup ∧ (∀ r, r ∈ rows ↔ Row s.db.h e.col e.mrec r) ∧
      rows.Pairwise (fun a b => ∀ v w, (view s.db.h).field a e.col = some v → (view s.db.h).field b e.col = some w → WG_COMPARE s.db.h.reader v w ≤ 0) := by
  have hk := ireach_inv hs
  obtain ⟨l, h1, h2, h3, h4, _⟩ := (hk.iinv hp).rows e he
  have hw := C22_contents_in_order h1 (l.length + 2) (Nat.le_refl _)
  obtain ⟨O, l', hi, hpm⟩ := hist_index h1
  have hl : walk e.st (l.length + 2) e.st.minN = l' := (index_walk hi (by rw [hpm.length_eq])).1
  rw [hl] at hw
  have hb : ∀ n ∈ l', n < 2 ^ 64 := fun n hn => h3 n (hpm.mem_iff.1 hn)
  have hmap : (l'.map (BitVec.ofNat 64)).map (·.toNat) = l' := by
    rw [List.map_map]
    conv => rhs; rw [← List.map_id l']
    exact List.map_congr_left fun n hn => ofNat_toNat (hb n hn)
  refine ⟨l'.map (BitVec.ofNat 64), fun k hk => ?_, ?_, fun r => ?_, ?_⟩
  · rw [hmap]
    have hk' : l'.length + 2 ≤ k := by simpa using hk
    exact index_walk hi hk'
  · have : ((l'.map (BitVec.ofNat 64)).map (·.toNat)).Nodup := by rw [hmap]; exact hpm.nodup_iff.2 h2
    exact List.Nodup.of_map _ this
  · refine Iff.trans ?_ (h4 r)
    rw [← hpm.mem_iff]
    constructor
    · intro hr
      have := List.mem_map_of_mem (f := (·.toNat)) hr
      rwa [hmap] at this
    · intro hr
      exact List.mem_map.2 ⟨r.toNat, hr, by simp⟩
  · rw [List.pairwise_map]
    refine hw.2.1.imp_of_mem fun {a b} ha hb' hab v w hv hw => ?_
    have e1 : (BitVec.ofNat 64 a).toNat = a := ofNat_toNat (hb a ha)
    have e2 : (BitVec.ofNat 64 b).toNat = b := ofNat_toNat (hb b hb')
    have k1 := idxEnv_key hv
    have k2 := idxEnv_key hw
    rw [e1] at k1; rw [e2] at k2
    rw [k1, k2] at hab
    simp only [idxEnv, wgEnv, ne_eq, compare_gt_iff_gt] at hab
    omega

/-- C28: no call that is part of such a history fails because of an index, reads outside of the database or does not return: a record is created if memory can be allocated, a field that
exists is set, and a record is deleted if and only if no field refers to it. -/
theorem C28_calls_succeed_partial {s : ISt} (hs : IReach C s) {op : IOp} (hp : IPre C s op) :
    ∃ s' out, irun s op = some (s', out) ∧ IReach C s' ∧ Result (view s.db.h) op out := by
  obtain ⟨s', out, e1, _, e3⟩ := istep_ok (ireach_inv hs) hp
  exact ⟨s', out, e1, hs.step hp e1, e3⟩

/-! ## Queries on such databases -/

/-- An index as the query functions read it. -/
def ixOf (h : Heap) (e : Idx) : Query.Idx Word := ⟨true, e.st, if e.mrec = 0#64 then none else view h e.mrec⟩

/-- A database as the query functions read it. `rs` are the data records in the order in which they are scanned, `idx` the chains of
`index_table`. -/
def queryDB (h : Heap) (rs : List Word) (idx : Nat → List (Query.Idx Word)) : Query.DB Word where
  recs := rs.map (·.toNat)
  len n := ((view h (BitVec.ofNat 64 n)).getD []).length
  fld n c := (getField h (BitVec.ofNat 64 n) c).getD illegal
  cmp a b := compare (WG_COMPARE h.reader a b) 0
  isVar w := decide (h.reader.typ w = some .var)
  ill := illegal
  null := 0#64
  idx := idx

theorem queryDB_env (h : Heap) (rs : List Word) (idx : Nat → List (Query.Idx Word)) (c : Nat) : (queryDB h rs idx).env c = idxEnv h c := rfl

theorem queryDB_fld {h : Heap} {rs : List Word} {idx : Nat → List (Query.Idx Word)} {r : Word} {rc : Rec} (hr : h.recs r = some rc) {c : Nat} {w : Word}
    (hw : rc.fields[c]? = some w) : (queryDB h rs idx).fld r.toNat c = w :=
  idxEnv_key (field_mem.2 ⟨rc, hr, hw⟩)

theorem queryDB_len {h : Heap} {rs : List Word} {idx : Nat → List (Query.Idx Word)} {r : Word} {rc : Rec} (hr : h.recs r = some rc) :
    (queryDB h rs idx).len r.toNat = rc.fields.length := by
  simp [queryDB, view, hr]

/-- The indexes of a database with a history meet the assumptions of the theorems on queries. -/
theorem queryDB_wf {s : ISt} (hs : IReach C s) (hp : s.pend = none) {rs : List Word} (hn : rs.Nodup)
    (hrs : ∀ r, r ∈ rs ↔ ∃ rc, s.db.h.recs r = some rc ∧ rc.special = false) {idx : Nat → List (Query.Idx Word)}
    (hidx : ∀ c, ∀ ix ∈ idx c, ∃ e ∈ s.db.ix, e.col = c ∧ ix = ixOf s.db.h e) :
    Query.WF (queryDB s.db.h rs idx) (Val s.db.h) := by
  have hk := ireach_inv hs
  have hI := hk.iinv hp
  refine ⟨fun c => by rw [queryDB_env]; exact idxEnv_ord hk.inv.str hk.good c, ?_, ?_, ?_, ?_, ?_⟩
  · exact hn.map fun a b hab => BitVec.toNat_inj.1 hab
  · intro h0
    obtain ⟨r, h1, h2⟩ := List.mem_map.1 h0
    obtain ⟨rc, h3, _⟩ := (hrs r).1 h1
    have := hk.inv.recs r rc h3
    have hz : r = 0#64 := BitVec.toNat_inj.1 (by simpa using h2)
    rw [hz] at this; exact absurd this (by decide)
  · intro n hn' c hc
    obtain ⟨r, h1, rfl⟩ := List.mem_map.1 hn'
    obtain ⟨rc, h3, _⟩ := (hrs r).1 h1
    rw [queryDB_len h3] at hc
    rw [queryDB_fld h3 (List.getElem?_eq_getElem hc)]
    exact field_val hk.inv.str hk.good (field_mem.2 ⟨rc, h3, List.getElem?_eq_getElem hc⟩)
  · intro c ix hix m hm v hv _
    obtain ⟨e, he, _, rfl⟩ := hidx c ix hix
    simp only [ixOf] at hm
    split_ifs at hm with h0
    simp only [view] at hm
    cases h1 : s.db.h.recs e.mrec with
    | none => rw [h1] at hm; cases hm
    | some mr =>
      rw [h1] at hm
      simp only [Option.map_some, Option.some.injEq] at hm
      subst hm
      obtain ⟨j, hj⟩ := List.mem_iff_getElem?.1 hv
      exact field_val hk.inv.str hk.good (field_mem.2 ⟨mr, h1, hj⟩)
  · intro c ix hix _
    obtain ⟨e, he, rfl, rfl⟩ := hidx c ix hix
    obtain ⟨l, h1, h2, h3, h4, _⟩ := hI.rows e he
    refine ⟨l, by rw [queryDB_env]; exact h1, h2, fun n => ?_⟩
    have key : ∀ r : Word, r.toNat ∈ l ↔ r.toNat ∈ (queryDB s.db.h rs idx).recs ∧ e.col < (queryDB s.db.h rs idx).len r.toNat ∧
        ∀ m, (ixOf s.db.h e).tmpl = some m → Query.Matches (queryDB s.db.h rs idx) m r.toNat := by
      intro r
      rw [h4 r]
      have hmem : r.toNat ∈ (queryDB s.db.h rs idx).recs ↔ r ∈ rs := by
        simp only [queryDB, List.mem_map]
        exact ⟨fun ⟨a, ha, hab⟩ => BitVec.toNat_inj.1 hab ▸ ha, fun hr => ⟨r, hr, rfl⟩⟩
      rw [hmem, hrs]
      have hmatch : ∀ rc, s.db.h.recs r = some rc →
          (Matches s.db.h e.mrec r ↔ ∀ m, (ixOf s.db.h e).tmpl = some m → Query.Matches (queryDB s.db.h rs idx) m r.toNat) := by
        intro rc hr
        by_cases h0 : e.mrec = 0#64
        · simp [Matches, ixOf, h0]
        obtain ⟨mr, hm⟩ : ∃ mr, s.db.h.recs e.mrec = some mr := by
          rcases (hk.cat e he).tmpl with h5 | ⟨mr, h5, _⟩
          · exact absurd h5 h0
          · exact ⟨mr, h5⟩
        have hv : view s.db.h e.mrec = some mr.fields := by simp [view, hm]
        have hvr : view s.db.h r = some rc.fields := by simp [view, hr]
        simp only [Matches, h0, false_or, ixOf, if_false, hv, hvr, Option.some.injEq, exists_and_left, exists_eq_left', forall_eq']
        have hone : ∀ (j : Nat) v, (∃ w, rc.fields[j]? = some w ∧ WG_COMPARE s.db.h.reader v w = 0) ↔
            j < (queryDB s.db.h rs idx).len r.toNat ∧ (queryDB s.db.h rs idx).cmp v ((queryDB s.db.h rs idx).fld r.toNat j) = .eq := by
          intro j v
          rw [queryDB_len hr]
          constructor
          · rintro ⟨w, h5, h6⟩
            refine ⟨(List.getElem?_eq_some_iff.1 h5).1, ?_⟩
            rw [queryDB_fld hr h5]
            simp [queryDB, h6]
          · rintro ⟨h5, h6⟩
            refine ⟨_, List.getElem?_eq_getElem h5, ?_⟩
            rw [queryDB_fld hr (List.getElem?_eq_getElem h5)] at h6
            simpa [queryDB, compare_eq_iff_eq] using h6
        constructor
        · intro hh j v h5 h6
          exact (hone j v).1 (hh j v h5 (by simpa [queryDB] using h6))
        · intro hh j v h5 h6
          exact (hone j v).2 (hh j v h5 (by simpa [queryDB] using h6))
      constructor
      · rintro ⟨rc, a1, a2, a3, a4⟩
        exact ⟨⟨rc, a1, a2⟩, by rw [queryDB_len a1]; exact a3, (hmatch rc a1).1 a4⟩
      · rintro ⟨⟨rc, a1, a2⟩, a3, a4⟩
        rw [queryDB_len a1] at a3
        exact ⟨rc, a1, a2, a3, (hmatch rc a1).2 a4⟩
    constructor
    · intro hn'
      have : (BitVec.ofNat 64 n).toNat = n := ofNat_toNat (h3 n hn')
      rw [← this] at hn' ⊢
      exact (key _).1 hn'
    · rintro ⟨a1, a2⟩
      obtain ⟨r, _, rfl⟩ := List.mem_map.1 a1
      exact (key r).2 ⟨a1, a2⟩

/-- C25: after any such history, a query returns exactly the records asked for, each once, whichever indexes there are and in whatever
order they are listed. The exceptions are those of `C25_query_partial` and of `IPre`. -/
theorem C25_after_history_partial {s : ISt} (hs : IReach C s) (hp : s.pend = none) {rs : List Word} (hn : rs.Nodup)
    (hrs : ∀ r, r ∈ rs ↔ ∃ rc, s.db.h.recs r = some rc ∧ rc.special = false) {idx : Nat → List (Query.Idx Word)}
    (hidx : ∀ c, ∀ ix ∈ idx c, ∃ e ∈ s.db.ix, e.col = c ∧ ix = ixOf s.db.h e)
    (mr : Option (List Word)) (al : Option (List (Query.Arg Word))) (hm : mr ≠ some []) (ha : al ≠ some [])
    (hv : ∀ v, Query.QueryValue (queryDB s.db.h rs idx) mr al v → Good s.db.h v ∧ LiveS s.db.h v)
    (hgap : ∀ l, al = some l → ∀ a ∈ l, ∀ b ∈ l, a.cond = .greater → b.cond = .lessThan → a.col = b.col → idx a.col ≠ [] → WG_COMPARE s.db.h.reader a.value b.value ≠ 0)
    (k : Nat) (hk : fuel rs.length ≤ k) :
    ∃ q rows, Query.makeQuery (queryDB s.db.h rs idx) k mr al 0 = some q ∧ Query.Fetches (queryDB s.db.h rs idx) k q rows ∧ rows.Nodup ∧
      ∀ r, r ∈ rows ↔ Query.Wanted (queryDB s.db.h rs idx) mr al r := by
  refine Query.C25_query_partial (queryDB_wf hs hp hn hrs hidx) mr al hm ha hv (fun l hl a h1 b h2 h3 h4 h5 h6 => ?_) k (by simpa [queryDB] using hk)
  obtain ⟨ix, h7, _⟩ := h6
  have := hgap l hl a h1 b h2 h3 h4 h5 (fun h0 => by
    have : ix ∈ idx a.col := h7
    rw [h0] at this; cases this)
  simpa [queryDB, compare_eq_iff_eq] using this

/-- C27: the same for wg_find_record. -/
theorem C27_after_history_partial {s : ISt} (hs : IReach C s) (hp : s.pend = none) {rs : List Word} (hn : rs.Nodup)
    (hrs : ∀ r, r ∈ rs ↔ ∃ rc, s.db.h.recs r = some rc ∧ rc.special = false) {idx : Nat → List (Query.Idx Word)}
    (hidx : ∀ c, ∀ ix ∈ idx c, ∃ e ∈ s.db.ix, e.col = c ∧ ix = ixOf s.db.h e)
    (col : Nat) (c : Query.Cond) (hc : c ≠ .other) (v : Word) (hv : Good s.db.h v ∧ LiveS s.db.h v) (k : Nat) (hk : fuel rs.length ≤ k) :
    ∃ rows, Query.Finds (queryDB s.db.h rs idx) k col c v 0 rows ∧ rows.Nodup ∧
      ∀ r, r ∈ rows ↔ r ∈ (queryDB s.db.h rs idx).recs ∧ Query.Sat (queryDB s.db.h rs idx) r ⟨col, c, v⟩ :=
  Query.C27_find_record (queryDB_wf hs hp hn hrs hidx) col c hc v hv k (by simpa [queryDB] using hk)

end WG.Recs
