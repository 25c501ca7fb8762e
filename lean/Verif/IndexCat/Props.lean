import Verif.IndexCat.Hist
import Verif.Compare.Props
import Mathlib.Data.List.Nodup
/-!
# C43, C44: the index catalogue
-/
namespace WG.IndexCat

/-! ## C44: columns -/

/-- C44: the columns of an index are kept as an increasing list, the columns from 0 to 127 that the caller gave. -/
theorem C44_sorted (cols : List Int) : (sortColumns cols).Pairwise (· < ·) ∧ ∀ x, x ∈ sortColumns cols ↔ x ∈ cols ∧ 0 ≤ x ∧ x ≤ 127 := sort_spec cols

/-- C44: the list gets shorter (and the call is refused) exactly when a column is repeated or is not from 0 to 127; otherwise it is a
permutation of the columns given. -/
theorem C44_refused (cols : List Int) :
    ((sortColumns cols).length < cols.length ↔ ¬(cols.Nodup ∧ ∀ x ∈ cols, 0 ≤ x ∧ x ≤ 127)) ∧
    (cols.Nodup ∧ (∀ x ∈ cols, 0 ≤ x ∧ x ≤ 127) → (sortColumns cols).Perm cols) :=
  ⟨sort_length cols, fun h => sort_perm fun h' => (sort_length cols).mp h' h⟩

example : sortColumns [5, 0, 127, 3] = [0, 3, 5, 127] ∧ sortColumns [5, 0, 5] = [0, 5] ∧ sortColumns [128, -1, 2] = [2] := by decide +kernel

variable {κ : Type} {V : Vt κ} {P : κ → Prop}

theorem sort_of_perm {a b : List Int} (h : a.Perm b) : sortColumns a = sortColumns b := sort_ext fun _ _ _ => h.mem_iff

theorem headD_mem {l : List Int} (h : l ≠ []) : l.headD 0 ∈ l := by
  cases l with
  | nil => exact absurd rfl h
  | cons a t => exact List.mem_cons_self ..

/-- C44: the order of the columns does not matter to the creation of an index. -/
theorem C44_create_order (c : Cat κ) (a b : List Int) (h : a.Perm b) (type : Int) (m : Option (List κ)) (al : Al) :
    create V c a type m al = create V c b type m al := by
  unfold create
  rw [sort_of_perm h, h.length_eq]

/-- C44: the order of the columns does not matter to the search for an index. -/
theorem C44_find_order (c : Cat κ) (a b : List Int) (h : a.Perm b) (type : Int) (m : Option (List κ)) : find V c a type m = find V c b type m := by
  have hs : (if a.length > 1 then sortColumns a else a) = if b.length > 1 then sortColumns b else b := by
    rw [h.length_eq]
    by_cases h1 : b.length > 1
    · rw [if_pos h1, if_pos h1, sort_of_perm h]
    · rw [if_neg h1, if_neg h1]
      match a, b with
      | [], b => exact h.nil_eq
      | _ :: _, [] => exact absurd h.eq_nil (by simp)
      | x :: a', [y] => exact List.perm_singleton.mp h
      | _, _ :: _ :: _ => simp at h1
  unfold find
  dsimp only
  rw [hs, sort_of_perm h, h.length_eq]

/-! ## C43: the catalogue -/

/-- What is asked for in wg_multi_column_to_index_id: type 0 stands for any type. -/
def Ent.Answers (V : Vt κ) (e : Ent κ) (cols : List Int) (type : Int) (m : Option (List κ)) : Prop :=
  (type = 0 ∨ e.type = type) ∧ e.cols.Perm cols ∧ AlikeO V e.tmpl m

theorem findIn_spec (c : Cat κ) (sorted : List Int) (type : Int) (t : Nat) : ∀ (l : List Nat),
    (findIn c sorted type t l = -1 ∧ ∀ x ∈ l, ¬((type = 0 ∨ type = (c.hdr x).type) ∧ (c.hdr x).tmpl = t ∧ (c.hdr x).cols = sorted)) ∨
    ∃ x ∈ l, findIn c sorted type t l = x ∧ (type = 0 ∨ type = (c.hdr x).type) ∧ (c.hdr x).tmpl = t ∧ (c.hdr x).cols = sorted
  | [] => Or.inl ⟨rfl, fun _ h => by cases h⟩
  | x :: l => by
    rw [findIn]
    by_cases h : (type = 0 ∨ type = (c.hdr x).type) ∧ (c.hdr x).tmpl = t ∧ (c.hdr x).cols = sorted
    · rw [if_pos h]
      exact Or.inr ⟨x, List.mem_cons_self .., rfl, h⟩
    · rw [if_neg h]
      rcases findIn_spec c sorted type t l with ⟨h1, h2⟩ | ⟨y, h1, h2⟩
      · refine Or.inl ⟨h1, fun y hy => ?_⟩
        rcases List.mem_cons.mp hy with rfl | hy
        · exact h
        · exact h2 y hy
      · exact Or.inr ⟨y, List.mem_cons_of_mem _ h1, h2⟩

theorem find_core {c : Cat κ} {L : List (Ent κ)} (h : CInv V P c L) {cols : List Int} {type : Int} {mo : Option (List κ)} {t : Nat}
    (ht : ∀ e ∈ L, (c.hdr e.id).tmpl = t ↔ AlikeO V e.tmpl mo) (hneg : ∀ i, cols = [i] → 0 ≤ i) :
    ∃ r, (if cols.length < 1 then some (-1 : Int)
    else if cols.length > maxFields then some (-1)
    else if cols.length > 1 ∧ (sortColumns cols).length < cols.length then some (-1)
    else if (if cols.length > 1 then sortColumns cols else cols).any (fun i => decide (i > maxCol)) then some (-1)
      else if (if cols.length > 1 then sortColumns cols else cols).headD 0 < 0 then none
      else some (findIn c (if cols.length > 1 then sortColumns cols else cols) type t (c.table ((if cols.length > 1 then sortColumns cols else cols).headD 0)))) =
      some r ∧
      ((r = -1 ∧ ¬∃ e ∈ L, e.Answers V cols type mo) ∨ ∃ e ∈ L, r = e.id ∧ e.Answers V cols type mo) := by
  have hleg : ∀ e ∈ L, e.Answers V cols type mo → cols ≠ [] ∧ cols.length ≤ 10 ∧ cols.Nodup ∧ ∀ i ∈ cols, 0 ≤ i ∧ i ≤ 127 := fun e he ha => by
    have := h.legal e he
    have hp := ha.2.1
    exact ⟨fun h0 => this.1 (by rw [h0] at hp; exact hp.eq_nil), by rw [← hp.length_eq]; exact this.2.1, hp.nodup_iff.mp this.2.2.1,
      fun i hi => this.2.2.2.1 i (hp.mem_iff.mpr hi)⟩
  by_cases h1 : cols.length < 1
  · rw [if_pos h1]
    refine ⟨-1, rfl, Or.inl ⟨rfl, ?_⟩⟩
    rintro ⟨e, he, ha⟩
    exact (hleg e he ha).1 (List.eq_nil_of_length_eq_zero (by omega))
  rw [if_neg h1]
  by_cases h2 : cols.length > maxFields
  · rw [if_pos h2]
    refine ⟨-1, rfl, Or.inl ⟨rfl, ?_⟩⟩
    rintro ⟨e, he, ha⟩
    have := (hleg e he ha).2.1
    unfold maxFields at h2
    omega
  rw [if_neg h2]
  by_cases h3 : cols.length > 1 ∧ (sortColumns cols).length < cols.length
  · rw [if_pos h3]
    refine ⟨-1, rfl, Or.inl ⟨rfl, ?_⟩⟩
    rintro ⟨e, he, ha⟩
    exact (sort_length cols).mp h3.2 (hleg e he ha).2.2
  rw [if_neg h3]
  by_cases h4 : ((if cols.length > 1 then sortColumns cols else cols).any fun i => decide (i > maxCol)) = true
  · rw [if_pos h4]
    refine ⟨-1, rfl, Or.inl ⟨rfl, ?_⟩⟩
    rintro ⟨e, he, ha⟩
    obtain ⟨i, hi, hm⟩ := List.any_eq_true.mp h4
    have hlt : i ∈ cols := by
      by_cases h5 : cols.length > 1
      · rw [if_pos h5] at hi; exact ((sort_spec cols).2 i |>.mp hi).1
      · rw [if_neg h5] at hi; exact hi
    have := (hleg e he ha).2.2.2 i hlt
    rw [decide_eq_true_eq] at hm
    unfold maxCol at hm
    omega
  rw [if_neg h4]
  -- the columns are legal
  have hnr : cols.Nodup ∧ ∀ x ∈ cols, 0 ≤ x ∧ x ≤ 127 := by
    by_cases h5 : cols.length > 1
    · by_contra hc
      exact h3 ⟨h5, (sort_length cols).mpr hc⟩
    · match cols, h1, h5 with
      | [i], _, _ =>
        refine ⟨List.pairwise_singleton _ i, fun x hx => ?_⟩
        rw [List.mem_singleton] at hx
        subst hx
        have := hneg x rfl
        simp only [List.length_singleton, gt_iff_lt, Nat.lt_irrefl, if_false, List.any_cons, List.any_nil, Bool.or_false, decide_eq_true_eq, maxCol] at h4
        omega
      | _ :: _ :: _, _, h5 => simp at h5
  have hsame : (if cols.length > 1 then sortColumns cols else cols) = sortColumns cols := by
    by_cases h5 : cols.length > 1
    · rw [if_pos h5]
    · rw [if_neg h5]
      match cols, h1, h5, hnr with
      | [i], _, _, hnr => exact (List.perm_singleton.mp (sort_perm fun h => (sort_length [i]).mp h hnr)).symm
      | _ :: _ :: _, _, h5, _ => simp at h5
  rw [hsame]
  have hsp := sort_perm fun h => (sort_length cols).mp h hnr
  have hne : sortColumns cols ≠ [] := fun h0 => by
    rw [h0] at hsp
    rw [hsp.nil_eq.symm] at h1
    exact h1 (by simp)
  have hhd := headD_mem hne
  rw [if_neg (by have := (((sort_spec cols).2 _).mp hhd).2.1; omega)]
  have hiff : ∀ e ∈ L, ((type = 0 ∨ type = (c.hdr e.id).type) ∧ (c.hdr e.id).tmpl = t ∧ (c.hdr e.id).cols = sortColumns cols) ↔ e.Answers V cols type mo :=
    fun e he => by
      have hle := h.legal e he
      rw [(h.hdr e he).type, (h.hdr e he).cols, ht e he, sort_eq_iff ⟨hle.2.2.1, hle.2.2.2.1⟩ hnr]
      unfold Ent.Answers
      rw [eq_comm (a := type) (b := e.type)]
      exact ⟨fun ⟨a, b, c⟩ => ⟨a, c, b⟩, fun ⟨a, b, c⟩ => ⟨a, c, b⟩⟩
  refine ⟨_, rfl, ?_⟩
  rcases findIn_spec c (sortColumns cols) type t (c.table ((sortColumns cols).headD 0)) with ⟨g1, g2⟩ | ⟨x, g1, g2, g3⟩
  · refine Or.inl ⟨g1, ?_⟩
    rintro ⟨e, he, ha⟩
    refine g2 e.id ((h.table _ _).mpr ⟨e, he, rfl, ?_⟩) ((hiff e he).mpr ha)
    exact ha.2.1.mem_iff.mpr (hsp.mem_iff.mp hhd)
  · obtain ⟨e, he, rfl⟩ := h.ent g1
    exact Or.inr ⟨e, he, g2, (hiff e he).mp g3⟩

/-- C43: after any history, wg_multi_column_to_index_id returns an index of the type asked for, on that set of columns, with that
template, which was created and not dropped; it returns -1 exactly if there is none. The match record has at most 128 fields and a single column is not negative. -/
theorem C43_find_partial (hV : VOk V P) {c : Cat κ} {L : List (Ent κ)} (hh : Hist V P c L) (cols : List Int) (type : Int) (mo : Option (List κ))
    (hm : ∀ l, mo = some l → (∀ v ∈ l, P v) ∧ l.length ≤ 128) (hneg : ∀ i, cols = [i] → 0 ≤ i) :
    ∃ r, find V c cols type mo = some r ∧
      ((r = -1 ∧ ¬∃ e ∈ L, e.Answers V cols type mo) ∨ ∃ e ∈ L, r = e.id ∧ e.Answers V cols type mo) := by
  have h := (hist_inv hV hh).1
  cases mo with
  | none => exact find_core h (fun e he => tmpl_none_iff h he) hneg
  | some m =>
    obtain ⟨hPm, hlen⟩ := hm m rfl
    have hans : ∀ e ∈ L, e.Answers V cols type (some m) → ∃ l, e.tmpl = some l ∧ Alike V l m := fun e he ha => by
      cases hl : e.tmpl with
      | none => have := ha.2.2; rw [hl] at this; exact this.elim
      | some l => have := ha.2.2; rw [hl] at this; exact ⟨l, rfl, this⟩
    unfold find
    dsimp only
    by_cases h1 : m.length = 0
    · rw [if_pos h1]
      refine ⟨-1, rfl, Or.inl ⟨rfl, ?_⟩⟩
      rintro ⟨e, he, ha⟩
      obtain ⟨l, hl, hal⟩ := hans e he ha
      have := alike_count hal
      rw [List.eq_nil_of_length_eq_zero h1] at this
      exact count_pos.mpr ((h.legal e he).2.2.2.2.2 l hl).2.1 this
    rw [if_neg h1, if_neg (by omega)]
    by_cases h2 : findTemplate V c m = 0
    · rw [if_pos h2]
      refine ⟨-1, rfl, Or.inl ⟨rfl, ?_⟩⟩
      rintro ⟨e, he, ha⟩
      obtain ⟨l, hl, hal⟩ := hans e he ha
      have hlg := (h.legal e he).2.2.2.2.2 l hl
      have hlv := h.vals e he l hl
      unfold findTemplate at h2
      by_cases h3 : m.any V.isRec = true
      · rw [← alike_rec hV hlv hPm hal] at h3
        obtain ⟨v, hv, hr⟩ := List.any_eq_true.mp h3
        rw [hlg.2.2.1 v hv] at hr
        cases hr
      rw [if_neg h3] at h2
      by_cases h4 : fixedCount V m = 0
      · rw [← alike_count hal] at h4
        exact count_pos.mpr hlg.2.1 h4
      rw [if_neg h4] at h2
      obtain ⟨g1, g2⟩ := (h.hdr e he).tsome l hl
      exact (findT_ok hV h hPm h4).2 h2 _ g1 (g2.trans hV (h.tms _ g1).vals hlv hPm hal)
    rw [if_neg h2]
    have hft : findTemplate V c m ∈ c.tlist ∧ Alike V (c.tm (findTemplate V c m)).fields m := by
      unfold findTemplate at h2 ⊢
      by_cases h3 : m.any V.isRec = true
      · rw [if_pos h3] at h2; exact absurd rfl h2
      rw [if_neg h3] at h2 ⊢
      by_cases h4 : fixedCount V m = 0
      · rw [if_pos h4] at h2; exact absurd rfl h2
      rw [if_neg h4] at h2 ⊢
      exact (findT_ok hV h hPm h4).1 h2
    exact find_core h (fun e he => tmpl_iff hV h he hft.1 hPm hft.2) hneg

/-- C43: no two indexes have the same type, columns and template, and their identifiers are different. -/
theorem C43_distinct (hV : VOk V P) {c : Cat κ} {L : List (Ent κ)} (hh : Hist V P c L) :
    (L.Pairwise fun e e' => ¬e.Fits V e'.cols e'.type e'.tmpl) ∧ (L.map Ent.id).Nodup := ⟨(hist_inv hV hh).1.uniq, (hist_inv hV hh).1.nodup⟩

/-- C43: creation succeeds exactly if the arguments are legal and there is no such index; otherwise nothing changes. -/
theorem C43_create (hV : VOk V P) {c : Cat κ} {L : List (Ent κ)} (hh : Hist V P c L) (cols : List Int) (type : Int) (mo : Option (List κ)) (al : Al)
    (hty : type = TTREE ∨ type = HASH ∨ type = HASH_JSON) (hash : al.hash = true) (hid : al.hdr ≠ 0) (hfr : ∀ e ∈ L, e.id ≠ al.hdr) (ht0 : al.tmpl ≠ 0)
    (htl : al.tmpl ∉ c.tlist) (href : (c.tm al.tmpl).refs = 0) (hm : ∀ l, mo = some l → ∀ v ∈ l, P v) :
    ((create V c cols type mo al).2 = 0 ↔ Legal V cols type mo ∧ ¬∃ e ∈ L, e.Fits V cols type mo) ∧
    ((create V c cols type mo al).2 ≠ 0 → create V c cols type mo al = (c, -1)) := by
  obtain ⟨h1, h2⟩ := hist_inv hV hh
  rcases create_inv hV h1 h2 cols type mo al hty hash hid hfr ht0 htl href hm with ⟨g1, g2, _⟩ | ⟨g1, g2, g3⟩
  · exact ⟨⟨fun _ => g1, fun _ => g2⟩, fun h => absurd g2 h⟩
  · exact ⟨⟨fun h => by rw [g2] at h; exact absurd h (by decide), fun h => absurd h g1⟩, fun _ => Prod.ext g3 g2⟩

/-- C43: dropping succeeds exactly for existing indexes (T-trees). -/
theorem C43_drop_partial (hV : VOk V P) {c : Cat κ} {L : List (Ent κ)} (hh : Hist V P c L) (id : Nat) (hid : ∀ e ∈ L, e.id = id → e.type = TTREE) :
    ((drop V c id).2 = 0 ↔ ∃ e ∈ L, e.id = id) ∧ ((drop V c id).2 ≠ 0 → drop V c id = (c, -1)) := by
  obtain ⟨h1, h2⟩ := hist_inv hV hh
  rcases drop_ok h1 h2 id hid with ⟨g1, g2, _⟩ | ⟨g1, g2, g3⟩
  · exact ⟨⟨fun _ => g1, fun _ => g2⟩, fun h => absurd g2 h⟩
  · exact ⟨⟨fun h => by rw [g2] at h; exact absurd h (by decide), fun h => absurd h g1⟩, fun _ => Prod.ext g3 g2⟩

/-- C43: wg_get_index_type gives the type of an existing index and -1 for any other number. -/
theorem C43_type (hV : VOk V P) {c : Cat κ} {L : List (Ent κ)} (hh : Hist V P c L) (id : Nat) :
    (∀ e ∈ L, e.id = id → indexType c id = e.type) ∧ ((∀ e ∈ L, e.id ≠ id) → indexType c id = -1) := by
  have h := (hist_inv hV hh).1
  unfold indexType
  constructor
  · rintro e he rfl
    rw [if_pos (by rw [h.list]; exact List.mem_map_of_mem he), (h.hdr e he).type]
  · intro hn
    rw [if_neg]
    rw [h.list, List.mem_map]
    rintro ⟨e, he, h1⟩
    exact hn e he h1

/-- C43: wg_get_index_template gives a match record like the one the index was created with, NULL if it has none. -/
theorem C43_template (hV : VOk V P) {c : Cat κ} {L : List (Ent κ)} (hh : Hist V P c L) (e : Ent κ) (he : e ∈ L) : AlikeO V (indexTemplate c e.id) e.tmpl := by
  have h := (hist_inv hV hh).1
  unfold indexTemplate
  rw [if_neg (not_not_intro (by rw [h.list]; exact List.mem_map_of_mem he))]
  cases hl : e.tmpl with
  | none => rw [if_pos ((h.hdr e he).tnone hl)]; trivial
  | some l =>
    obtain ⟨g1, g2⟩ := (h.hdr e he).tsome l hl
    rw [if_neg (fun h0 => h.lnz (by rw [← h0]; exact g1))]
    exact g2

/-- C43: the chain of a column (followed by index maintenance and queries) holds exactly the indexes on that column, each once, those with
more fixed columns first; the template chain of a column holds exactly the indexes whose template fixes it, each once. -/
theorem C43_chains (hV : VOk V P) {c : Cat κ} {L : List (Ent κ)} (hh : Hist V P c L) :
    (∀ k x, x ∈ c.table k ↔ ∃ e ∈ L, e.id = x ∧ k ∈ e.cols) ∧ (∀ k, (c.table k).Nodup) ∧
    (∀ k x, x ∈ c.ttable k ↔ ∃ e ∈ L, e.id = x ∧ ∃ l, e.tmpl = some l ∧ fix V l k ≠ none) ∧ (∀ k, (c.ttable k).Nodup) ∧
    ∀ k, (c.table k).Pairwise fun x y => ((indexTemplate c y).map (fixedCount V)).getD 0 ≤ ((indexTemplate c x).map (fixedCount V)).getD 0 := by
  have h := (hist_inv hV hh).1
  refine ⟨h.table, h.tnodup, h.ttable, h.ttnodup, fun k => ?_⟩
  have hx : ∀ x ∈ c.table k, ((indexTemplate c x).map (fixedCount V)).getD 0 = nfix c x := fun x hx => by
    obtain ⟨e, he, rfl⟩ := h.ent hx
    unfold indexTemplate nfix
    rw [if_neg (not_not_intro (by rw [h.list]; exact List.mem_map_of_mem he))]
    by_cases h0 : (c.hdr e.id).tmpl = 0
    · rw [if_pos h0, if_pos h0]; rfl
    · rw [if_neg h0, if_neg h0, (h.tms _ (h.tmem he h0)).fixed]; rfl
  refine List.Pairwise.imp_of_mem (fun {x y} hxm hym hxy => ?_) (h.tsorted k)
  rw [hx x hxm, hx y hym]
  exact hxy

/-- C43: if all indexes have one column, wg_get_all_indexes lists each of them exactly once (NULL if there are none). -/
theorem C43_all_partial (hV : VOk V P) {c : Cat κ} {L : List (Ent κ)} (hh : Hist V P c L) (hone : ∀ e ∈ L, e.cols.length = 1) :
    (L = [] ∧ allIndexes c = .null) ∨ ∃ l, allIndexes c = .ids l ∧ l.Perm (L.map Ent.id) := by
  have h := (hist_inv hV hh).1
  have hc := h.count
  set l := (List.range 128).flatMap fun (k : Nat) => c.table (k : Int) with hl
  have hmem : ∀ x, x ∈ l ↔ x ∈ L.map Ent.id := fun x => by
    rw [hl, List.mem_flatMap, List.mem_map]
    constructor
    · rintro ⟨k, _, hx⟩
      exact h.ent hx
    · rintro ⟨e, he, rfl⟩
      have hle := h.legal e he
      obtain ⟨i, hi⟩ := List.exists_mem_of_ne_nil _ hle.1
      have hr := hle.2.2.2.1 i hi
      refine ⟨i.toNat, List.mem_range.mpr (by omega), (h.table _ _).mpr ⟨e, he, rfl, ?_⟩⟩
      rw [Int.toNat_of_nonneg hr.1]
      exact hi
  have hnd : l.Nodup := by
    rw [hl, List.nodup_flatMap]
    refine ⟨fun k _ => h.tnodup _, List.nodup_range.imp ?_⟩
    intro a b hab x hxa hxb
    obtain ⟨e, he, h1, h2⟩ := (h.table _ _).mp hxa
    obtain ⟨e', he', h1', h2'⟩ := (h.table _ _).mp hxb
    have := id_inj h.nodup he he' (h1.trans h1'.symm)
    subst this
    obtain ⟨i, hi⟩ := List.length_eq_one_iff.mp (hone e he)
    rw [hi, List.mem_singleton] at h2 h2'
    omega
  have hp : l.Perm (L.map Ent.id) := (List.perm_ext_iff_of_nodup hnd h.nodup).mpr hmem
  have hlen : (l.length : Int) = c.count := by rw [hc, hp.length_eq, List.length_map]
  unfold allIndexes
  by_cases h0 : c.count = 0
  · rw [if_pos h0]
    refine Or.inl ⟨?_, rfl⟩
    rw [h0] at hc
    exact List.eq_nil_of_length_eq_zero (by omega)
  · rw [if_neg h0]
    dsimp only
    rw [← hl, if_neg (by omega), if_neg (by omega)]
    exact Or.inr ⟨l, rfl, hp⟩

/-! ## Encoded values -/

/-- Encoded values of a database. -/
def dbVt (s : Seg) : Vt Word where
  isVar v := decide (getEncodedType s.mem v = some .var)
  isRec v := decide (getEncodedType s.mem v = some .record)
  same a b := decide (WG_COMPARE s a b = 0)

/-- The values of a database can be used in match records: all theorems above hold with `WG_COMPARE` (`ValueSet`: well-formed values without NaN). -/
theorem dbVt_ok {s : Seg} {W : Word → Prop} (hW : ValueSet s W) : VOk (dbVt s) W where
  refl a ha := decide_eq_true (C06_antisymm hW a a ha ha).1
  symm a b ha hb h := by
    simp only [dbVt, decide_eq_true_eq] at h ⊢
    have := (C06_antisymm hW b a hb ha).2.1
    omega
  trans a b c ha hb hc h1 h2 := by
    simp only [dbVt, decide_eq_true_eq] at h1 h2 ⊢
    have g1 := (C06_trans hW a b c ha hb hc (by omega) (by omega)).1
    have e1 := (C06_antisymm hW b a hb ha).2.1
    have e2 := (C06_antisymm hW c b hc hb).2.1
    have e3 := (C06_antisymm hW c a hc ha).2.1
    have g2 := (C06_trans hW c b a hc hb ha (by omega) (by omega)).1
    omega
  var a b ha hb h := by
    simp only [dbVt, decide_eq_true_eq] at h ⊢
    rw [(C07_equal_same_content hW a b ha hb h).1]
  rcd a b ha hb h := by
    simp only [dbVt, decide_eq_true_eq] at h ⊢
    rw [(C07_equal_same_content hW a b ha hb h).1]
  apart a h := by
    simp only [dbVt, decide_eq_true_eq, decide_eq_false_iff_not] at h ⊢
    rw [h]
    intro h'
    cases h'

end WG.IndexCat
