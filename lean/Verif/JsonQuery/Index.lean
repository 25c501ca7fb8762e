import Verif.JsonQuery.Exact
import Verif.IndexMaint.Props
import Verif.HashIndex.Props
/-!
# Indexes that document queries use

The T-tree index on the key column and the JSON hash index on the key and value columns, as `Src` sees them, deliver the right records (`SrcOk`).
-/
namespace WG.JsonQuery
open WG.Recs WG.TTree

variable {C : Prop} {h : Heap}

/-- The rows for a key in the T-tree index `st` on column 1: find_ttree_bounds and the loop in Db/dbquery.c lines 1899-1933 (the loop is the one of a T-tree query). -/
def keyRows (h : Heap) (st : TTree.St Word) (k : Nat) (key : Word) : List Word :=
  match findBounds (idxEnv h 1) k st key key true true with
  | none => []
  | some r => (rangeRows st k r).map (BitVec.ofNat 64)

/-- What the index code sees as arrays: `is_schema_array`, Db/dbdata.h line 273, for values that are records (Db/dbindex.c lines 1514-1524). -/
def arrOf (h : Heap) (w : Word) : Option (List Word) :=
  if isRecVal w then (h.recs w).bind fun a => if isArray a then some a.fields else none else none

/-- How the hash index code reads the database. -/
def hashEnv (h : Heap) : HashIndex.Env := ⟨h.reader, arrOf h⟩

/-- The rows for a key and a value in the JSON hash index `T` on columns 1 and 2: wg_search_hash and the loop in Db/dbquery.c lines 1888-1908; nothing if it fails. -/
def hashRows (h : Heap) (T : HashIndex.Table) (key v : Word) : List Word := (HashIndex.search (hashEnv h) T [key, v]).getD []

/-- After any history that maintains the T-tree index, the rows found in it for a key are the data records with that key in field 1. -/
theorem keyRows_ok {s : ISt} (hs : IReach C s) (hp : s.pend = none) {e : Recs.Idx} (he : e ∈ s.db.ix) (hc : e.col = 1) (hm : e.mrec = 0#64)
    {key : Word} (hkey : Val s.db.h key) (r : Word) :
    r ∈ keyRows s.db.h e.st treeFuel key ↔
      Data s.db.h r ∧ ∃ fs k, view s.db.h r = some fs ∧ fs[1]? = some k ∧ WG_COMPARE s.db.h.reader k key = 0 := by
  have hk := ireach_inv hs
  obtain ⟨l, h1, h2, h3, h4, _⟩ := (hk.iinv hp).rows e he
  rw [hc] at h1
  obtain ⟨O, l', hi, hpm⟩ := hist_index h1
  have hlen : l'.length ≤ 2 ^ 64 := by
    rw [hpm.length_eq]
    have : l.length ≤ (List.range (2 ^ 64)).length :=
      (List.Nodup.subperm h2 fun n hn => List.mem_range.2 (h3 n hn)).length_le
    rwa [List.length_range] at this
  have hfuel : fuel l'.length ≤ treeFuel := by unfold treeFuel fuel; omega
  have hill : key ≠ (idxEnv s.db.h 1).ill := by
    rintro rfl
    obtain ⟨t, ht⟩ := (val_ordered hk.inv.str hk.good).typ _ hkey
    have : s.db.h.reader.typ 0xff#64 = none := show getEncodedType s.db.h.mem 0xff#64 = none by simp [getEncodedType, isVar, isSmallint]
    rw [show (idxEnv s.db.h 1).ill = 0xff#64 from rfl, this] at ht
    cases ht
  have hkl : ∀ r : Word, r.toNat ∈ l' → ∃ rc w, s.db.h.recs r = some rc ∧ rc.special = false ∧ rc.fields[1]? = some w ∧ (idxEnv s.db.h 1).key r.toNat = w := by
    intro r hr
    obtain ⟨rc, a1, a2, a3, _⟩ := (h4 r).1 (hpm.mem_iff.1 hr)
    rw [hc] at a3
    exact ⟨rc, _, a1, a2, List.getElem?_eq_getElem a3, idxEnv_key (field_mem.2 ⟨rc, a1, List.getElem?_eq_getElem a3⟩)⟩
  classical
  obtain ⟨rg, g1, g2⟩ := findBounds_res O hi (b1 := key) (b2 := key) (.inr hkey) (.inr hkey) (i1 := true) (i2 := true) hfuel (fun x hx hb => by
    simp only [TTree.Below, TTree.Within, if_true] at hb ⊢
    right; rw [hb.2]; simp)
  unfold keyRows
  rw [g1]
  dsimp only
  rw [g2]
  have hmem : r ∈ (l'.filter (fun x => decide (¬ TTree.Below (idxEnv s.db.h 1) key true x) && decide (TTree.Within (idxEnv s.db.h 1) key true x))).map (BitVec.ofNat 64) ↔
      r.toNat ∈ l' ∧ (idxEnv s.db.h 1).cmp ((idxEnv s.db.h 1).key r.toNat) key = .eq := by
    rw [List.mem_map]
    have hone : ∀ x, (decide (¬ TTree.Below (idxEnv s.db.h 1) key true x) && decide (TTree.Within (idxEnv s.db.h 1) key true x)) = true ↔
        (idxEnv s.db.h 1).cmp ((idxEnv s.db.h 1).key x) key = .eq := by
      intro x
      simp only [TTree.Below, TTree.Within, if_true, Bool.and_eq_true, decide_eq_true_eq, hill, false_or, ne_eq, not_false_iff, true_and]
      cases (idxEnv s.db.h 1).cmp ((idxEnv s.db.h 1).key x) key <;> simp
    constructor
    · rintro ⟨n, a1, rfl⟩
      obtain ⟨a2, a3⟩ := List.mem_filter.1 a1
      rw [ofNat_toNat (h3 n (hpm.mem_iff.1 a2))]
      exact ⟨a2, (hone n).1 a3⟩
    · rintro ⟨a1, a2⟩
      exact ⟨r.toNat, List.mem_filter.2 ⟨a1, (hone _).2 a2⟩, by simp⟩
  rw [hmem]
  have hcmp : ∀ w, (idxEnv s.db.h 1).cmp w key = .eq ↔ WG_COMPARE s.db.h.reader w key = 0 := by
    intro w
    simp [idxEnv, wgEnv, compare_eq_iff_eq]
  constructor
  · rintro ⟨a1, a2⟩
    obtain ⟨rc, w, b1, b2, b3, b4⟩ := hkl r a1
    rw [b4] at a2
    exact ⟨⟨rc, b1, b2⟩, rc.fields, w, by simp [view, b1], b3, (hcmp w).1 a2⟩
  · rintro ⟨⟨rc, b1, b2⟩, fs, w, b3, b4, b5⟩
    have : fs = rc.fields := by simpa [view, b1] using b3.symm
    subst this
    have hr : r.toNat ∈ l' := hpm.mem_iff.2 ((h4 r).2 ⟨rc, b1, b2, by rw [hc]; exact (List.getElem?_eq_some_iff.1 b4).1, .inl hm⟩)
    refine ⟨hr, ?_⟩
    rw [idxEnv_key (field_mem.2 ⟨rc, b1, b4⟩)]
    exact (hcmp w).2 b5

/-- The conditions under which the JSON hash index on columns 1 and 2 is exact. `rows`: the table results from insertions and removals, and the rows in it are the data
records with at least three fields, inserted with the values they have now. `V` are the values of the database (`fields`) and of the query. `keyed`, `canon`, `bytes`: the key bytes of values are equal if and only if the values are (see `Keyed` and
`Canon`), and all indexed values have key bytes; `plain`: there is no array in column 1. -/
structure HashOk (h : Heap) (V : Word → Prop) (T : HashIndex.Table) : Prop where
  rows : ∃ L, HashIndex.Hist true T L ∧ ∀ r ks, (r, ks) ∈ L ↔ ∃ rc f1 f2, h.recs r = some rc ∧ rc.special = false ∧ rc.fields[1]? = some f1 ∧ rc.fields[2]? = some f2 ∧
    ks = HashIndex.keysOf (hashEnv h) true [f1, f2]
  fields : ∀ r rc w, h.recs r = some rc → w ∈ rc.fields → V w
  keyed : HashIndex.Keyed h.reader V
  canon : ∀ w, V w → isRecVal w = false → HashIndex.Canon h.reader w
  bytes : ∀ r rc f1 f2, h.recs r = some rc → rc.special = false → rc.fields[1]? = some f1 → rc.fields[2]? = some f2 → HashIndex.Hashable (hashEnv h) true [f1, f2]
  plain : ∀ r rc f1, h.recs r = some rc → rc.special = false → rc.fields[1]? = some f1 → arrOf h f1 = none

theorem hashable_none (E : HashIndex.Env) (w : Word) : HashIndex.hashable E w = none ↔ E.R.typ w = none ∨ E.R.typ w = some .blob ∨ E.R.typ w = some .anonconst := by
  unfold HashIndex.hashable
  cases E.R.typ w with
  | none => simp
  | some t => cases t <;> simp

/-- The values under which the hash index has a value are the ones that `HasValue` speaks about. -/
theorem hasValue_iff {V : Word → Prop} (hV : Ordered h.reader V) {w v : Word} (hw : V w) (hv : V v) (hrec : isRecVal v = false) :
    HasValue h w v ↔ ∃ y ∈ HashIndex.valuesOf (hashEnv h) true w, WG_COMPARE h.reader y v = 0 := by
  unfold HasValue HashIndex.valuesOf
  simp only [if_true, hashEnv, arrOf]
  by_cases hr : isRecVal w = true
  · have h0 : WG_COMPARE h.reader w v ≠ 0 := by
      intro h0
      have := (HashIndex.eq_sameVal hV hw hv h0).1
      rw [typ_isRecVal.2 hr] at this
      rw [typ_isRecVal.1 this.symm] at hrec
      cases hrec
    rw [if_pos hr]
    cases ha : h.recs w with
    | none => simp [h0]
    | some a =>
      by_cases hb : isArray a = true
      · simp [h0, hb, hr]
      · simp [h0, hb]
  · rw [if_neg hr]
    simp [hr]

/-- The rows found in the JSON hash index for a key and a value are the data records that are such pairs. -/
theorem hashRows_ok {V : Word → Prop} {T : HashIndex.Table} (hT : HashOk h V T) {key v : Word} (hkey : V key) (hv : V v)
    (hk0 : isRecVal key = false) (hv0 : isRecVal v = false) (r : Word) : r ∈ hashRows h T key v ↔ Data h r ∧ IsPair h r key v := by
  have hV := hT.keyed.ordered
  obtain ⟨L, hL, hrows⟩ := hT.rows
  have hval : ∀ {r : Word} {rc : Rec} {w : Word}, h.recs r = some rc → w ∈ rc.fields → V w := by
    intro r rc w h1 h2
    exact hT.fields r rc w h1 h2
  have hvals : ∀ {w y : Word}, V w → y ∈ HashIndex.valuesOf (hashEnv h) true w → V y := by
    intro w y hw hy
    unfold HashIndex.valuesOf at hy
    simp only [if_true, hashEnv, arrOf] at hy
    by_cases hr : isRecVal w = true
    · rw [if_pos hr] at hy
      cases ha : h.recs w with
      | none => rw [ha] at hy; simp at hy; exact hy ▸ hw
      | some a =>
        rw [ha] at hy
        by_cases hb : isArray a = true
        · simp [hb] at hy; exact hval ha hy
        · simp [hb] at hy; exact hy ▸ hw
    · rw [if_neg hr] at hy
      simp at hy; exact hy ▸ hw
  have hsame : ∀ {x y : Word}, V x → V y → WG_COMPARE h.reader x y = 0 → (HashIndex.hashable (hashEnv h) x = none ↔ HashIndex.hashable (hashEnv h) y = none) := by
    intro x y hx hy hxy
    have := (HashIndex.eq_sameVal hV hx hy hxy).1
    rw [hashable_none, hashable_none]
    show (h.reader.typ x = none ∨ _) ↔ (h.reader.typ y = none ∨ _)
    simp only [hashEnv, this]
  -- equality of values is equality of bytes
  have hbytes : ∀ {x y : Word}, V x → V y → isRecVal y = false → WG_COMPARE h.reader x y = 0 → HashIndex.hashable (hashEnv h) x = HashIndex.hashable (hashEnv h) y := by
    intro x y hx hy hr hxy
    have hx0 : isRecVal x = false := by
      have := (HashIndex.eq_sameVal hV hx hy hxy).1
      cases hc : isRecVal x
      · rfl
      · rw [typ_isRecVal.2 hc] at this
        rw [typ_isRecVal.1 this.symm] at hr; cases hr
    exact HashIndex.canon_bytes (E := hashEnv h) hV hx hy (hT.canon x hx hx0) (hT.canon y hy hr) (hT.keyed.str x hx) (hT.keyed.str y hy) hxy
  have hpair : (Data h r ∧ IsPair h r key v) ↔ ∃ rc f1 f2, h.recs r = some rc ∧ rc.special = false ∧ rc.fields[1]? = some f1 ∧ rc.fields[2]? = some f2 ∧
      WG_COMPARE h.reader f1 key = 0 ∧ ∃ y ∈ HashIndex.valuesOf (hashEnv h) true f2, WG_COMPARE h.reader y v = 0 := by
    constructor
    · rintro ⟨⟨rc, a1, a2⟩, fs, k, w, b1, b2, b3, b4, b5⟩
      have : fs = rc.fields := by simpa [view, a1] using b1.symm
      subst this
      exact ⟨rc, k, w, a1, a2, b2, b3, b4, (hasValue_iff hV (hval a1 (List.mem_of_getElem? b3)) hv hv0).1 b5⟩
    · rintro ⟨rc, k, w, a1, a2, b2, b3, b4, b5⟩
      exact ⟨⟨rc, a1, a2⟩, rc.fields, k, w, by simp [view, a1], b2, b3, b4, (hasValue_iff hV (hval a1 (List.mem_of_getElem? b3)) hv hv0).2 b5⟩
  rw [hpair]
  unfold hashRows
  by_cases hh : ∀ x ∈ [key, v], HashIndex.hashable (hashEnv h) x ≠ none
  · obtain ⟨rows, e1, e2⟩ := HashIndex.C29_rows hL (hashEnv h) [key, v] hh
    rw [e1, Option.getD_some, e2]
    constructor
    · rintro ⟨ks, a1, a2⟩
      obtain ⟨rc, f1, f2, b1, b2, b3, b4, rfl⟩ := (hrows r ks).1 a1
      have hf1 := hval b1 (List.mem_of_getElem? b3)
      have hf2 := hval b1 (List.mem_of_getElem? b4)
      have hv1 : HashIndex.valuesOf (hashEnv h) true f1 = [f1] := by
        unfold HashIndex.valuesOf
        simp [hashEnv, hT.plain r rc f1 b1 b2 b3]
      obtain ⟨cs, c1, c2⟩ := List.mem_map.1 a2
      simp only [HashIndex.choices, hv1, List.flatMap_cons, List.flatMap_nil, List.append_nil, List.map_cons, List.map_nil, List.mem_map, List.mem_flatMap, List.mem_singleton] at c1
      obtain ⟨_, ⟨y, c3, rfl⟩, rfl⟩ := c1
      have hy := hvals hf2 c3
      have hB := hT.bytes r rc f1 f2 b1 b2 b3 b4
      have := HashIndex.joined_inj (E := hashEnv h) (V := V) hT.keyed (as := [f1, y]) (bs := [key, v]) rfl
        (by simp [hf1, hy]) (by simp [hkey, hv])
        (by
          intro x hx
          rcases List.mem_cons.1 hx with rfl | hx
          · exact hB _ List.mem_cons_self _ (by rw [hv1]; exact List.mem_singleton_self _)
          · rw [List.mem_singleton.1 hx]; exact hB f2 (by simp) y c3) hh c2
      cases this with
      | cons d1 d2 => cases d2 with
        | cons d2 _ =>
          exact ⟨rc, f1, f2, b1, b2, b3, b4, HashIndex.sameVal_eq hV hf1 hkey d1, y, c3, HashIndex.sameVal_eq hV hy hv d2⟩
    · rintro ⟨rc, f1, f2, b1, b2, b3, b4, b5, y, b6, b7⟩
      have hf1 := hval b1 (List.mem_of_getElem? b3)
      have hf2 := hval b1 (List.mem_of_getElem? b4)
      have hv1 : HashIndex.valuesOf (hashEnv h) true f1 = [f1] := by
        unfold HashIndex.valuesOf
        simp [hashEnv, hT.plain r rc f1 b1 b2 b3]
      refine ⟨_, (hrows r _).2 ⟨rc, f1, f2, b1, b2, b3, b4, rfl⟩, List.mem_map.2 ⟨[f1, y], ?_, ?_⟩⟩
      · simp only [HashIndex.choices, hv1, List.flatMap_cons, List.flatMap_nil, List.append_nil, List.map_cons, List.map_nil, List.mem_map, List.mem_flatMap, List.mem_singleton]
        exact ⟨[y], ⟨y, b6, rfl⟩, rfl⟩
      · unfold HashIndex.keyOf
        simp only [List.map_cons, List.map_nil, hbytes hf1 hkey hk0 b5, hbytes (hvals hf2 b6) hv hv0 b7]
  · have hn : HashIndex.search (hashEnv h) T [key, v] = none := by
      rw [(HashIndex.C29_unhashable (hashEnv h) 0 T [key, v]).2]
      push_neg at hh
      exact hh
    rw [hn, Option.getD_none]
    constructor
    · intro h0; cases h0
    · rintro ⟨rc, f1, f2, b1, b2, b3, b4, b5, y, b6, b7⟩
      exfalso
      apply hh
      have hf1 := hval b1 (List.mem_of_getElem? b3)
      have hf2 := hval b1 (List.mem_of_getElem? b4)
      have hv1 : HashIndex.valuesOf (hashEnv h) true f1 = [f1] := by
        unfold HashIndex.valuesOf
        simp [hashEnv, hT.plain r rc f1 b1 b2 b3]
      have hB := hT.bytes r rc f1 f2 b1 b2 b3 b4
      intro x hx
      rcases List.mem_cons.1 hx with rfl | hx
      · rw [Ne, ← hsame hf1 hkey b5]
        exact hB _ List.mem_cons_self _ (by rw [hv1]; exact List.mem_singleton_self _)
      · rw [List.mem_singleton.1 hx, Ne, ← hsame (hvals hf2 b6) hv b7]
        exact hB f2 (by simp) y b6

end WG.JsonQuery
