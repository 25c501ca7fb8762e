import Verif.HashIndex.Inj
import Mathlib.Data.List.Nodup
/-!
# C29: hash indexes
-/
namespace WG.HashIndex

/-- C29: after any history of insertions and removals a lookup returns, for every row, as many entries as the key of the given values was stored for it and
not removed. -/
theorem C29_lookup {ex : Bool} {T : Table} {L : List (Word × List Key)} (h : Hist ex T L) (E : Env) (vs : List Word)
    (hv : ∀ v ∈ vs, hashable E v ≠ none) :
    ∃ rows, search E T vs = some rows ∧ ∀ r, rows.count r = ((L.filter (fun e => e.1 = r)).map fun e => e.2.count (keyOf E vs)).sum := by
  refine ⟨lookup T (keyOf E vs), ?_, ?_⟩
  · unfold search
    rw [keyBytes_eq, if_pos hv, foldl_extend]
    · rfl
    · intro b hb
      obtain ⟨x, hx, rfl⟩ := List.mem_map.1 hb
      exact bytesOf_ne (hv x hx)
  · intro r
    rw [((hist_inv h).2 _).count_eq]
    generalize keyOf E vs = k
    clear h hv
    induction L with
    | nil => rfl
    | cons e L ih =>
      rw [rowsOf, List.flatMap_cons, List.count_append, List.count_replicate]
      rw [rowsOf] at ih
      rw [ih]
      by_cases he : e.1 = r
      · simp [he]
      · simp [he]

/-- C29: the lookup returns exactly the rows stored under the same key bytes. -/
theorem C29_rows {ex : Bool} {T : Table} {L : List (Word × List Key)} (h : Hist ex T L) (E : Env) (vs : List Word)
    (hv : ∀ v ∈ vs, hashable E v ≠ none) :
    ∃ rows, search E T vs = some rows ∧ ∀ r, r ∈ rows ↔ ∃ ks, (r, ks) ∈ L ∧ keyOf E vs ∈ ks := by
  obtain ⟨rows, h1, h2⟩ := C29_lookup h E vs hv
  refine ⟨rows, h1, fun r => ?_⟩
  rw [← List.count_pos_iff, h2]
  generalize keyOf E vs = k
  clear h2 h
  induction L with
  | nil => simp
  | cons e L ih =>
    by_cases he : e.1 = r
    · simp only [List.filter_cons, he, decide_true, if_true, List.map_cons, List.sum_cons, List.mem_cons]
      rw [Nat.add_pos_iff_pos_or_pos, ih, List.count_pos_iff]
      constructor
      · rintro (g | ⟨ks, g1, g2⟩)
        · exact ⟨e.2, Or.inl (by rw [← he]), g⟩
        · exact ⟨ks, Or.inr g1, g2⟩
      · rintro ⟨ks, g1 | g1, g2⟩
        · exact Or.inl (by rw [← g1]; exact g2)
        · exact Or.inr ⟨ks, g1, g2⟩
    · simp only [List.filter_cons, he, decide_false, List.mem_cons]
      rw [if_neg (by simp), ih]
      constructor
      · rintro ⟨ks, g1, g2⟩
        exact ⟨ks, Or.inr g1, g2⟩
      · rintro ⟨ks, g1 | g1, g2⟩
        · exact absurd (by rw [← g1]) he
        · exact ⟨ks, g1, g2⟩

/-- C29: no row is returned twice, unless it was stored twice under the same key. -/
theorem C29_once {ex : Bool} {T : Table} {L : List (Word × List Key)} (h : Hist ex T L) (E : Env) (vs : List Word)
    (hd : (L.map Prod.fst).Nodup) (hk : ∀ e ∈ L, e.2.Nodup) (rows : List Word) (hr : search E T vs = some rows) : rows.Nodup := by
  by_cases hv : ∀ v ∈ vs, hashable E v ≠ none
  · obtain ⟨rows', h1, h2⟩ := C29_lookup h E vs hv
    rw [hr] at h1
    cases h1
    rw [List.nodup_iff_count_le_one]
    intro r
    rw [h2]
    generalize keyOf E vs = k
    clear h2 h hr
    induction L with
    | nil => simp
    | cons e L ih =>
      rw [List.map_cons, List.nodup_cons] at hd
      by_cases he : e.1 = r
      · have hnone : L.filter (fun e => e.1 = r) = [] := by
          rw [List.filter_eq_nil_iff]
          intro x hx g
          exact hd.1 (List.mem_map.2 ⟨x, hx, by rw [he]; simpa using g⟩)
        rw [List.filter_cons, if_pos (by simpa using he), hnone]
        simpa using List.nodup_iff_count_le_one.1 (hk e List.mem_cons_self) k
      · rw [List.filter_cons, if_neg (by simpa using he)]
        exact ih hd.2 (fun x hx => hk x (List.mem_cons_of_mem _ hx))
  · unfold search at hr
    rw [keyBytes_eq, if_neg hv] at hr
    cases hr

/-- C29: the values without key bytes are the blobs (and undecodable values); a search for them is an error. -/
theorem C29_unhashable (E : Env) (w : Word) (T : Table) (vs : List Word) :
    (hashable E w = none ↔ E.R.typ w = none ∨ E.R.typ w = some .blob ∨ E.R.typ w = some .anonconst) ∧
    (search E T vs = none ↔ ∃ v ∈ vs, hashable E v = none) := by
  constructor
  · unfold hashable
    cases E.R.typ w with
    | none => simp
    | some t => cases t <;> simp
  · unfold search
    rw [keyBytes_eq]
    by_cases hv : ∀ v ∈ vs, hashable E v ≠ none
    · rw [if_pos hv]
      simp only [Option.map_some, reduceCtorEq, false_iff, not_exists, not_and]
      exact hv
    · rw [if_neg hv]
      simp only [Option.map_none, true_iff]
      by_contra g
      exact hv fun v hm hn => g ⟨v, hm, hn⟩

/-- C29: insertion of a hashable row and removal of a stored row succeed; in a plain index a row that cannot be hashed is refused and nothing changes. -/
theorem C29_codes {ex : Bool} {T : Table} {L : List (Word × List Key)} (h : Hist ex T L) (E : Env) (r : Word) (vs : List Word) :
    (Hashable E ex vs → (addRow E ex T r vs).2 = 0) ∧
    (Hashable E ex vs → (r, keysOf E ex vs) ∈ L → (removeRow E ex T r vs).2 = 0) ∧
    (ex = false → ¬Hashable E ex vs → addRow E ex T r vs = (T, -1)) := by
  have hi := hist_inv h
  refine ⟨fun hv => (addRow_ok hi.1 r hv).2.1, fun hv hm => ?_, ?_⟩
  · exact (removeRow_ok hi.1 r hv _ (fun k => (hi.2 k).trans (rowsOf_erase hm k))).2.1
  · rintro rfl hv
    exact recurse_refuse _ hv [] T

/-- The keys of a row in a plain index. -/
theorem C29_plain_keys (E : Env) (vs : List Word) : keysOf E false vs = [keyOf E vs] ∧ (Hashable E false vs ↔ ∀ v ∈ vs, hashable E v ≠ none) := by
  have h1 : ∀ v, valuesOf E false v = [v] := fun v => rfl
  have h2 : choices E false vs = [vs] := by
    induction vs with
    | nil => rfl
    | cons v vs ih => rw [choices, h1, ih]; rfl
  constructor
  · rw [keysOf, h2]
    rfl
  · unfold Hashable
    simp only [h1, List.mem_singleton, forall_eq]

/-- C29: a plain index created over existing records holds the records that can be hashed. -/
theorem C29_build (E : Env) (n : Nat) (rows : List (Word × List Word)) (hne : ∀ e ∈ rows, e.2 ≠ []) :
    ∃ L, Hist false (build E false n rows) L ∧
    ∀ r k, (r, k) ∈ L ↔ ∃ vs, (r, vs) ∈ rows ∧ (∀ v ∈ vs, hashable E v ≠ none) ∧ k = [keyOf E vs] := by
  unfold build
  have gen : ∀ (rows : List (Word × List Word)) (T : Table) (L : List (Word × List Key)), (∀ e ∈ rows, e.2 ≠ []) → Hist false T L →
      ∃ L', Hist false (rows.foldl (fun T e => (addRow E false T e.1 e.2).1) T) L' ∧
      ∀ r k, (r, k) ∈ L' ↔ (r, k) ∈ L ∨ ∃ vs, (r, vs) ∈ rows ∧ (∀ v ∈ vs, hashable E v ≠ none) ∧ k = [keyOf E vs] := by
    intro rows
    induction rows with
    | nil => intro T L _ h; exact ⟨L, h, fun r k => by simp⟩
    | cons e rows ih =>
      intro T L hn h
      have hn' : ∀ e ∈ rows, e.2 ≠ [] := fun x hx => hn x (List.mem_cons_of_mem _ hx)
      rw [List.foldl_cons]
      by_cases hv : Hashable E false e.2
      · obtain ⟨L', h1, h2⟩ := ih _ _ hn' (Hist.add E e.1 e.2 h (hn e List.mem_cons_self) hv)
        refine ⟨L', h1, fun r k => ?_⟩
        rw [h2, (C29_plain_keys E e.2).1]
        have hv' := (C29_plain_keys E e.2).2.1 hv
        constructor
        · rintro (g | ⟨vs, g1, g2⟩)
          · rcases List.mem_cons.1 g with g | g
            · cases g
              exact Or.inr ⟨e.2, List.mem_cons_self, hv', rfl⟩
            · exact Or.inl g
          · exact Or.inr ⟨vs, List.mem_cons_of_mem _ g1, g2⟩
        · rintro (g | ⟨vs, g1, g2, g3⟩)
          · exact Or.inl (List.mem_cons_of_mem _ g)
          · rcases List.mem_cons.1 g1 with g | g
            · subst g
              exact Or.inl (by rw [g3]; exact List.mem_cons_self)
            · exact Or.inr ⟨vs, g, g2, g3⟩
      · obtain ⟨L', h1, h2⟩ := ih _ _ hn' (Hist.refuse E e.1 e.2 h rfl hv)
        refine ⟨L', h1, fun r k => ?_⟩
        rw [h2]
        constructor
        · rintro (g | ⟨vs, g1, g2⟩)
          · exact Or.inl g
          · exact Or.inr ⟨vs, List.mem_cons_of_mem _ g1, g2⟩
        · rintro (g | ⟨vs, g1, g2, g3⟩)
          · exact Or.inl g
          · rcases List.mem_cons.1 g1 with g | g
            · subst g
              exact absurd ((C29_plain_keys E vs).2.2 g2) hv
            · exact Or.inr ⟨vs, g, g2, g3⟩
  obtain ⟨L', h1, h2⟩ := gen rows _ [] hne (Hist.init n)
  exact ⟨L', h1, fun r k => by rw [h2]; simp⟩

/-- The values of a database meet `Keyed` under the conditions on integers, variables and extra strings. -/
theorem keyed_of {s : Seg} {V : Word → Prop} (hV : ValueSet s V)
    (hint : ∀ w v, V w → decodeInt s.mem w = some v → -2 ^ 31 ≤ v.toInt ∧ v.toInt < 2 ^ 31)
    (hvar : ∀ w v, V w → getEncodedType s.mem w = some .var → decodeVar w = some v → -2 ^ 31 ≤ v.toInt ∧ v.toInt < 2 ^ 31)
    (hext : ∀ w e b l, V w → decodeUnistrLang s w = some e → decodeUnistr s w = some (b :: l) → 14 < b.toNat) : Keyed s V where
  ordered := hV.ordered
  str w _ := decodeUnistr_no_zero s w
  fix w hw ht := by
    obtain ⟨d, hd, rfl⟩ := hV.valid w hw
    have e := Option.some.inj ((C03_type_correct s.mem d hd).symm.trans ht)
    cases d <;> simp [Datum.type] at e
    · rename_i off t
      subst e
      rcases hd.2.1 with h1 | h1 | h1 | h1 | h1 <;> cases h1
    · rename_i i
      obtain ⟨a, b⟩ := C02_fixpoint_roundtrip i
      have hb := b (a.2 hd)
      show -8000000 ≤ ((decodeFixpoint (encodeFixpoint i)).getD 0#64).toInt ∧ ((decodeFixpoint (encodeFixpoint i)).getD 0#64).toInt ≤ 8000000
      cases hc : decodeFixpoint (encodeFixpoint i) with
      | none => rw [hc] at hb; cases hb
      | some x =>
        rw [hc] at hb
        simp only [Option.map_some, Option.some.injEq] at hb
        rw [Option.getD_some, hb]
        have h1 : -(800 * 10000) ≤ i.toInt ∧ i.toInt ≤ 800 * 10000 := hd
        omega
  int w hw _ := by
    show -2 ^ 31 ≤ ((decodeInt s.mem w).getD 0#64).toInt ∧ ((decodeInt s.mem w).getD 0#64).toInt < 2 ^ 31
    cases hc : decodeInt s.mem w with
    | none => decide
    | some v => exact hint w v hw hc
  var w hw ht := by
    cases hc : decodeVar w with
    | none => decide
    | some v => exact hvar w v hw ht hc
  ext w hw _ hl b l hb := by
    have hl' : decodeUnistrLang s w ≠ none := hl
    have hb' : (decodeUnistr s w).getD [] = b :: l := hb
    cases hc : decodeUnistrLang s w with
    | none => exact absurd hc hl'
    | some e =>
      cases hu : decodeUnistr s w with
      | none => rw [hu] at hb'; cases hb'
      | some x => rw [hu] at hb'; exact hext w e b l hw hc (by rw [hu, ← hb']; rfl)

/-- C29: two lists of values of the same length share key bytes only if they are equal column by column. Missing: integers and variables outside 32 bits
and URIs or XML literals with an extra string that begin with a byte from 1 to 14, where it is false (see the counterexamples). -/
theorem C29_equal_partial {s : Seg} {V : Word → Prop} (hV : ValueSet s V)
    (hint : ∀ w v, V w → decodeInt s.mem w = some v → -2 ^ 31 ≤ v.toInt ∧ v.toInt < 2 ^ 31)
    (hvar : ∀ w v, V w → getEncodedType s.mem w = some .var → decodeVar w = some v → -2 ^ 31 ≤ v.toInt ∧ v.toInt < 2 ^ 31)
    (hext : ∀ w e b l, V w → decodeUnistrLang s w = some e → decodeUnistr s w = some (b :: l) → 14 < b.toNat)
    (arr : Word → Option (List Word)) (as bs : List Word) (hl : as.length = bs.length) (ha : ∀ v ∈ as, V v) (hb : ∀ v ∈ bs, V v)
    (ha1 : ∀ v ∈ as, hashable ⟨s, arr⟩ v ≠ none) (hb1 : ∀ v ∈ bs, hashable ⟨s, arr⟩ v ≠ none)
    (h : keyOf ⟨s, arr⟩ as = keyOf ⟨s, arr⟩ bs) : List.Forall₂ (fun a b => WG_COMPARE s a b = 0) as bs := by
  have hk := joined_inj (E := ⟨s, arr⟩) (keyed_of hV hint hvar hext) hl ha hb ha1 hb1 h
  clear h hl ha1 hb1
  induction hk with
  | nil => exact .nil
  | cons h1 _ ih =>
    exact .cons (sameVal_eq hV.ordered (ha _ List.mem_cons_self) (hb _ List.mem_cons_self) h1)
      (ih (fun v hv => ha v (List.mem_cons_of_mem _ hv)) (fun v hv => hb v (List.mem_cons_of_mem _ hv)))

/-- C29: values that are equal column by column have the same key bytes. Missing: -0.0 (equal to 0.0), empty extra strings (equal to missing ones)
and records (equal records at different addresses have different keys). -/
theorem C29_same_key_partial {s : Seg} {V : Word → Prop} (hV : ValueSet s V) (arr : Word → Option (List Word)) (as bs : List Word)
    (ha : ∀ v ∈ as, V v ∧ Canon s v) (hb : ∀ v ∈ bs, V v ∧ Canon s v) (h : List.Forall₂ (fun a b => WG_COMPARE s a b = 0) as bs) :
    keyOf ⟨s, arr⟩ as = keyOf ⟨s, arr⟩ bs := by
  unfold keyOf
  congr 1
  induction h with
  | nil => rfl
  | @cons a b as bs h1 _ ih =>
    obtain ⟨va, ca⟩ := ha a List.mem_cons_self
    obtain ⟨vb, cb⟩ := hb b List.mem_cons_self
    rw [List.map_cons, List.map_cons, ih (fun v hv => ha v (List.mem_cons_of_mem _ hv)) (fun v hv => hb v (List.mem_cons_of_mem _ hv)),
      canon_bytes (E := ⟨s, arr⟩) hV.ordered va vb ca cb (decodeUnistr_no_zero s a) (decodeUnistr_no_zero s b) h1]

/-- C29: a lookup in a plain index returns a stored row exactly when the row's columns are equal to the given values. `hL`: every row is stored once, with the key of
the values it has now. The restrictions are those of C29_equal_partial and C29_same_key_partial. -/
theorem C29_exact_partial {s : Seg} {V : Word → Prop} (hV : ValueSet s V)
    (hint : ∀ w v, V w → decodeInt s.mem w = some v → -2 ^ 31 ≤ v.toInt ∧ v.toInt < 2 ^ 31)
    (hvar : ∀ w v, V w → getEncodedType s.mem w = some .var → decodeVar w = some v → -2 ^ 31 ≤ v.toInt ∧ v.toInt < 2 ^ 31)
    (hext : ∀ w e b l, V w → decodeUnistrLang s w = some e → decodeUnistr s w = some (b :: l) → 14 < b.toNat)
    (arr : Word → Option (List Word)) {T : Table} {L : List (Word × List Key)} (h : Hist false T L)
    (rec : Word → List Word) (n : Nat) (hlen : ∀ r, (rec r).length = n)
    (hL : ∀ e ∈ L, e.2 = [keyOf ⟨s, arr⟩ (rec e.1)] ∧ ∀ v ∈ rec e.1, V v ∧ Canon s v ∧ hashable ⟨s, arr⟩ v ≠ none)
    (hd : (L.map Prod.fst).Nodup) (vs : List Word) (hn : vs.length = n) (hvs : ∀ v ∈ vs, V v ∧ Canon s v ∧ hashable ⟨s, arr⟩ v ≠ none) :
    ∃ rows, search ⟨s, arr⟩ T vs = some rows ∧ rows.Nodup ∧
      ∀ r, r ∈ rows ↔ (∃ ks, (r, ks) ∈ L) ∧ List.Forall₂ (fun a b => WG_COMPARE s a b = 0) vs (rec r) := by
  obtain ⟨rows, h1, h2⟩ := C29_rows h ⟨s, arr⟩ vs (fun v hv => (hvs v hv).2.2)
  refine ⟨rows, h1, C29_once h _ vs hd (fun e he => by rw [(hL e he).1]; exact List.nodup_singleton _) rows h1, fun r => ?_⟩
  rw [h2]
  constructor
  · rintro ⟨ks, g1, g2⟩
    obtain ⟨e0, e2⟩ := hL _ g1
    have e1 : ks = _ := e0
    rw [e1] at g2
    exact ⟨⟨ks, g1⟩, C29_equal_partial hV hint hvar hext arr vs (rec r) (by rw [hn, hlen]) (fun v hv => (hvs v hv).1) (fun v hv => (e2 v hv).1)
      (fun v hv => (hvs v hv).2.2) (fun v hv => (e2 v hv).2.2) (List.mem_singleton.1 g2)⟩
  · rintro ⟨⟨ks, g1⟩, g2⟩
    obtain ⟨e0, e2⟩ := hL _ g1
    have e1 : ks = _ := e0
    refine ⟨ks, g1, ?_⟩
    rw [e1, C29_same_key_partial hV arr vs (rec r) (fun v hv => ⟨(hvs v hv).1, (hvs v hv).2.1⟩) (fun v hv => ⟨(e2 v hv).1, (e2 v hv).2.1⟩) g2]
    exact List.mem_singleton_self _

end WG.HashIndex
