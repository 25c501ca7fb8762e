import Verif.IndexMaint.Reader
import Verif.IndexMaint.Visit
import Verif.Records.Lemmas
import Mathlib.Data.List.Range
/-! # One index: adding, removing and re-reading rows -/
namespace WG.Recs
open WG.TTree

variable {C : Prop} {h h' : Heap}

/-- Values the indexes can deal with. -/
def Val (h : Heap) (w : Word) : Prop := Good h w ∧ LiveS h w

theorem field_mem {p w : Word} {c : Nat} : (view h).field p c = some w ↔ ∃ rc, h.recs p = some rc ∧ rc.fields[c]? = some w := by
  simp only [Table.field, view]
  cases h.recs p <;> simp

theorem field_live (hs : SInv C h (fldF h)) {p w : Word} {c : Nat} (hf : (view h).field p c = some w) : LiveS h w := by
  obtain ⟨rc, hr, hw⟩ := field_mem.1 hf
  exact hs.live (.fld p c) w (by simp [Held, fldF, hr, hw])

theorem field_val (hs : SInv C h (fldF h)) (hg : AllGood h) {p w : Word} {c : Nat} (hf : (view h).field p c = some w) : Val h w := by
  refine ⟨?_, field_live hs hf⟩
  obtain ⟨rc, hr, hw⟩ := field_mem.1 hf
  exact hg p rc w hr (List.mem_of_getElem? hw)

theorem val_ordered (hs : SInv C h (fldF h)) (hg : AllGood h) : Ordered h.reader (Val h) :=
  ordered hs (fun _ a => a.1) (fun _ a => a.2) fun w rc _ hr f hf => by
    obtain ⟨j, hj⟩ := List.mem_iff_getElem?.1 hf
    exact field_val hs hg (p := w) (c := j) (field_mem.2 ⟨rc, hr, hj⟩)

theorem idxEnv_ord (hs : SInv C h (fldF h)) (hg : AllGood h) (c : Nat) : Ord (idxEnv h c) (Val h) :=
  wgEnv_ord (val_ordered hs hg) (show getEncodedType h.mem 0xff#64 = none by simp [getEncodedType, isVar, isSmallint]) _

theorem idxEnv_key {p w : Word} {c : Nat} (hf : (view h).field p c = some w) : (idxEnv h c).key p.toNat = w := by
  obtain ⟨rc, hr, hw⟩ := field_mem.1 hf
  obtain ⟨hl, e⟩ := List.getElem?_eq_some_iff.1 hw
  simp only [idxEnv, wgEnv, BitVec.ofNat_toNat, BitVec.setWidth_eq, getField, hr, Option.map_some, Option.getD_some]
  rw [if_neg (by omega)]
  simp [List.getD_eq_getElem?_getD, hw]

/-- The index `e` is in order on heap `h` and has the rows `S`. -/
def IdxSt (h : Heap) (e : Idx) (S : Word → Prop) : Prop :=
  ∃ l, Hist (idxEnv h e.col) (Val h) e.st l ∧ l.Nodup ∧ (∀ n ∈ l, n < 2 ^ 64) ∧ (∀ r : Word, r.toNat ∈ l ↔ S r) ∧ (∀ i, Linked e.st i → i < e.next) ∧
    0 < e.next

theorem IdxSt.congr {e : Idx} {S S' : Word → Prop} (hi : IdxSt h e S) (hS : ∀ r, S r ↔ S' r) : IdxSt h e S' := by
  obtain ⟨l, a, b, c, d, f⟩ := hi
  exact ⟨l, a, b, c, fun r => (d r).trans (hS r), f⟩

theorem nodup_length {l : List Nat} {n : Nat} (hn : l.Nodup) (hb : ∀ x ∈ l, x < n) : l.length ≤ n := by
  have := hn.subperm (l₂ := List.range n) (fun x hx => List.mem_range.2 (hb x hx))
  simpa using this.length_le

theorem fuel_le {l : List Nat} (hn : l.Nodup) (hb : ∀ x ∈ l, x < 2 ^ 64) : fuel l.length ≤ treeFuel := by
  have := nodup_length hn hb
  unfold treeFuel fuel
  omega

theorem IdxSt.add {e : Idx} {S : Word → Prop} (hi : IdxSt h e S) {r w : Word} (hr : ¬ S r) (hf : (view h).field r e.col = some w) (hv : Val h w) :
    (addRowIx h r e).2 = 0 ∧ IdxSt h (addRowIx h r e).1 (fun q => S q ∨ q = r) := by
  obtain ⟨l, a, b, c, d, f, g⟩ := hi
  have hk := fuel_le b c
  have hP : Val h ((idxEnv h e.col).key r.toNat) := by rw [idxEnv_key hf]; exact hv
  have hnl : ¬ Linked e.st e.next := fun hl => absurd (f _ hl) (by omega)
  have h0 := (C22_no_panic a r.toNat treeFuel hP hk).1 e.next (by omega) hnl
  refine ⟨by simp only [addRowIx, h0, ne_eq, not_true_eq_false, if_false], r.toNat :: l, Hist.add treeFuel e.next r.toNat a hP (by omega) hnl hk, ?_, ?_, ?_, ?_, ?_⟩
  · exact List.nodup_cons.2 ⟨fun hm => hr ((d r).1 hm), b⟩
  · intro n hn
    rcases List.mem_cons.1 hn with rfl | hn
    · exact r.isLt
    · exact c n hn
  · intro q
    rw [List.mem_cons, d q, BitVec.toNat_inj]
    exact or_comm
  · intro i hl
    have := ((C22_nodes a r.toNat treeFuel hP hk).1 e.next (by omega) hnl i).2 hl
    show i < e.next + 1
    rcases this with hl | rfl
    · have := f i hl; omega
    · omega
  · show 0 < e.next + 1; omega

theorem IdxSt.del {e : Idx} {S : Word → Prop} (hi : IdxSt h e S) {r w : Word} (hr : S r) (hf : (view h).field r e.col = some w) (hv : Val h w) :
    (delRowIx h r e).2 = 0 ∧ IdxSt h (delRowIx h r e).1 (fun q => S q ∧ q ≠ r) := by
  obtain ⟨l, a, b, c, d, f, g⟩ := hi
  have hk := fuel_le b c
  have hP : Val h ((idxEnv h e.col).key r.toNat) := by rw [idxEnv_key hf]; exact hv
  have h0 := (C22_no_panic a r.toNat treeFuel hP hk).2.1 ((d r).2 hr)
  refine ⟨by simp only [delRowIx, h0]; decide, l.erase r.toNat, Hist.remove treeFuel r.toNat a hP hk, b.erase _, fun n hn => c n (List.mem_of_mem_erase hn), ?_, ?_, g⟩
  · intro q
    rw [b.mem_erase_iff, d q, Ne, BitVec.toNat_inj]
    exact and_comm
  · intro i hl
    exact f i (((C22_nodes a r.toNat treeFuel hP hk).2 i).1.2 (Or.inr hl))

/-- A change of the database that keeps the values of the rows and their order. -/
theorem IdxSt.update {e : Idx} {S : Word → Prop} (hi : IdxSt h e S) (hs : SInv C h' (fldF h')) (hg : AllGood h')
    (hkey : ∀ r, S r → ∃ w, (view h).field r e.col = some w ∧ (view h').field r e.col = some w)
    (hcmp : ∀ r q a b, S r → S q → (view h).field r e.col = some a → (view h).field q e.col = some b → WG_COMPARE h'.reader a b = WG_COMPARE h.reader a b) :
    IdxSt h' e S := by
  obtain ⟨l, a, b, c, d, f, g⟩ := hi
  have hw : ∀ n ∈ l, ∃ r : Word, n = r.toNat ∧ S r := by
    intro n hn
    have : (BitVec.ofNat 64 n).toNat = n := by rw [BitVec.toNat_ofNat]; exact Nat.mod_eq_of_lt (c n hn)
    exact ⟨BitVec.ofNat 64 n, this.symm, (d _).1 (by rw [this]; exact hn)⟩
  refine ⟨l, Hist.update a (idxEnv_ord hs hg e.col) rfl ?_ ?_, b, c, d, f, g⟩
  · intro n hn
    obtain ⟨r, rfl, hr⟩ := hw n hn
    obtain ⟨w, e1, e2⟩ := hkey r hr
    rw [idxEnv_key e1, idxEnv_key e2]
    exact ⟨rfl, field_val hs hg e2⟩
  · intro n hn m hm
    obtain ⟨r, rfl, hr⟩ := hw n hn
    obtain ⟨q, rfl, hq⟩ := hw m hm
    obtain ⟨w, e1, e2⟩ := hkey r hr
    obtain ⟨u, e3, e4⟩ := hkey q hq
    rw [idxEnv_key e1, idxEnv_key e3]
    simp only [idxEnv, wgEnv, hcmp r q w u hr hq e1 e3]

/-- A new index is empty. -/
theorem IdxSt.create (hs : SInv C h (fldF h)) (hg : AllGood h) {e : Idx} {root : Nat} (h0 : root ≠ 0) {g : Nat → Nd Word}
    (he : e.st = TTree.create (idxEnv h e.col) g root) (hn : e.next = root + 1) : IdxSt h e (fun _ => False) := by
  refine ⟨[], by rw [he]; exact Hist.create g root (idxEnv_ord hs hg _) h0, List.nodup_nil, by simp, by simp, ?_, by omega⟩
  intro i hl
  have : i = root := by
    rw [he] at hl
    induction hl with
    | root _ => rfl
    | left _ b ih => subst ih; simp [TTree.create] at b
    | right _ b ih => subst ih; simp [TTree.create] at b
  omega

/-! ### Changes of the heap -/

/-- The heap changes; values that stay live keep their content, and records outside `D` their fields. -/
structure Moves (C : Prop) (h h' : Heap) (D : Word → Prop) : Prop where
  old : SInv C h (fldF h)
  new : SInv C h' (fldF h')
  value : ∀ w, LiveS h w → LiveS h' w → SameValue h h' w
  recs : ∀ p, ¬ D p → (h.recs p = none → h'.recs p = none) ∧ ∀ rc, h.recs p = some rc → ∃ b, h'.recs p = some { rc with back := b }

theorem Moves.seen {D : Word → Prop} (hm : Moves C h h' D) (p : Word) (hp : ¬ D p) : view h' p = view h p := by
  simp only [view]
  cases e : h.recs p with
  | none => rw [(hm.recs p hp).1 e]
  | some rc => obtain ⟨b, e2⟩ := (hm.recs p hp).2 rc e; rw [e2]; rfl

/-- The value is stored before and after the change. -/
def Stays (h h' : Heap) (w : Word) : Prop := (∃ p c, (view h).field p c = some w) ∧ ∃ p c, (view h').field p c = some w

theorem Moves.rsame {D : Word → Prop} (hm : Moves C h h' D) {w : Word} (hw : Stays h h' w) : RSame h.reader h'.reader w := by
  obtain ⟨⟨p, c, e⟩, ⟨q, d, f⟩⟩ := hw
  exact (hm.value w (field_live hm.old e) (field_live hm.new f)).rsame

theorem reader_fields (h : Heap) (w : Word) : h.reader.fields w = (view h w).getD [] ∧ h.reader.len w = ((view h w).map fun l => (l.length : Int)).getD 0 := by
  simp only [Heap.reader, view]
  cases h.recs w <;> simp

theorem Moves.cmp {D : Word → Prop} (hm : Moves C h h' D) {a b : Word} (ha : Stays h h' a) (hb : Stays h h' b)
    (ff : h.reader.typ a = some .record → h.reader.typ b = some .record → Far h.reader D 7 a ∧ Far h.reader D 7 b) :
    WG_COMPARE h'.reader a b = WG_COMPARE h.reader a b := by
  refine compare_local (V := Stays h h') (D := D) (fun w hw => hm.rsame hw) ?_ ha hb ff
  intro w hw hd _
  obtain ⟨a1, a2⟩ := reader_fields h w
  obtain ⟨b1, b2⟩ := reader_fields h' w
  rw [a1, a2, b1, b2, hm.seen w hd]
  refine ⟨rfl, rfl, fun f hf => ?_⟩
  cases e : view h w with
  | none => rw [e] at hf; simp at hf
  | some fs =>
    rw [e] at hf
    obtain ⟨j, hj⟩ := List.mem_iff_getElem?.1 (by simpa using hf)
    exact ⟨⟨w, j, by simp [Table.field, e, hj]⟩, ⟨w, j, by simp [Table.field, hm.seen w hd, e, hj]⟩⟩

theorem Moves.allGood {D : Word → Prop} (hm : Moves C h h' D) (hg : AllGood h)
    (hnew : ∀ p c w, (view h').field p c = some w → (∃ q d, (view h).field q d = some w) ∨ Good h' w) : AllGood h' := by
  intro r rc w hr hw
  obtain ⟨j, hj⟩ := List.mem_iff_getElem?.1 hw
  have hf : (view h').field r j = some w := field_mem.2 ⟨rc, hr, hj⟩
  rcases hnew r j w hf with ⟨q, d, e⟩ | hg'
  · exact (field_val hm.old hg e).1.congr (hm.value w (field_live hm.old e) (field_live hm.new hf))
  · exact hg'

/-! ### Templates -/

/-- The match record of an index: a special record of at most 128 fields without references. -/
def Tmpl (h : Heap) (m : Word) : Prop :=
  m = 0#64 ∨ ∃ mr, h.recs m = some mr ∧ mr.special = true ∧ mr.fields.length ≤ 128 ∧ ∀ w ∈ mr.fields, isRecVal w = false

/-- The last column of a match record is fixed: it is never longer than needed. -/
def Trimmed (h : Heap) (m : Word) : Prop := m = 0#64 ∨ ∃ mr w, h.recs m = some mr ∧ mr.fields.getLast? = some w ∧ h.reader.typ w ≠ some .var

/-- The columns fixed by a match record. -/
def fixOf (h : Heap) (m : Word) : List Nat := if m = 0#64 then [] else fixedCols h m

theorem mem_fixOf {m : Word} {c : Nat} : c ∈ fixOf h m ↔ m ≠ 0#64 ∧ ∃ v, (view h).field m c = some v ∧ h.reader.typ v ≠ some .var := by
  unfold fixOf
  by_cases hm : m = 0#64
  · simp [hm]
  · rw [if_neg hm]
    unfold fixedCols
    cases e : h.recs m with
    | none => simp [Table.field, view, e]
    | some mr =>
      simp only [List.mem_filter, List.mem_range, isFixedVal, bne_iff_ne, Table.field, view, e, Option.map_some, Option.bind_some]
      constructor
      · rintro ⟨a, b⟩
        refine ⟨hm, mr.fields[c], List.getElem?_eq_getElem a, ?_⟩
        rwa [List.getD_eq_getElem?_getD, List.getElem?_eq_getElem a] at b
      · rintro ⟨_, v, a, b⟩
        obtain ⟨hl, _⟩ := List.getElem?_eq_some_iff.1 a
        refine ⟨hl, ?_⟩
        rwa [List.getD_eq_getElem?_getD, a]

theorem matchFields_iff : ∀ {es ws : List Word}, es.length ≤ ws.length →
    (matchFields h es ws = true ↔ ∀ (c : Nat) v, es[c]? = some v → h.reader.typ v ≠ some .var → ∃ w, ws[c]? = some w ∧ WG_COMPARE h.reader v w = 0)
  | [], ws, _ => by simp [matchFields]
  | e :: es, [], hl => by simp at hl
  | e :: es, w :: ws, hl => by
    have ih := @matchFields_iff es ws (by simpa using hl)
    have hstep : matchFields h (e :: es) (w :: ws) = true ↔ ¬ (h.reader.typ e ≠ some .var ∧ WG_COMPARE h.reader e w ≠ 0) ∧ matchFields h es ws = true := by
      by_cases h1 : (isFixedVal h e && WG_COMPARE h.reader e w != 0) = true
      · rw [matchFields, if_pos h1]
        simp only [isFixedVal, Bool.and_eq_true, bne_iff_ne] at h1
        exact ⟨(fun e => by cases e), fun e => absurd h1 e.1⟩
      · rw [matchFields, if_neg h1]
        have : ¬ (h.reader.typ e ≠ some .var ∧ WG_COMPARE h.reader e w ≠ 0) := by
          rintro ⟨a, b⟩
          exact h1 (by simp [isFixedVal, a, b])
        exact ⟨fun e => ⟨this, e⟩, fun e => e.2⟩
    rw [hstep, ih]
    constructor
    · rintro ⟨h1, hm⟩ c v hv ht
      cases c with
      | zero =>
        simp only [List.getElem?_cons_zero, Option.some.injEq] at hv
        subst hv
        refine ⟨w, rfl, ?_⟩
        by_contra hc
        exact h1 ⟨ht, hc⟩
      | succ c => exact hm c v (by simpa using hv) ht
    · intro hm
      refine ⟨?_, fun c v hv => hm (c + 1) v (by simpa using hv)⟩
      rintro ⟨a, b⟩
      obtain ⟨w', e1, e2⟩ := hm 0 e rfl a
      simp only [List.getElem?_cons_zero, Option.some.injEq] at e1
      subst e1
      exact b e2

theorem matchTemplate_iff {m r : Word} {rc : Rec} (hr : h.recs r = some rc) (hm : m = 0#64 ∨ ∃ mr, h.recs m = some mr) (ht : Trimmed h m) :
    matchTemplate h m r = true ↔ Matches h m r := by
  unfold matchTemplate Matches
  by_cases h0 : m = 0#64
  · simp [h0]
  rcases hm with hm | ⟨mr, hm⟩
  · exact absurd hm h0
  rcases ht with ht | ⟨mr', lw, ht, hlast, hfix⟩
  · exact absurd ht h0
  rw [hm] at ht; cases ht
  simp only [if_neg h0, hm, hr, h0, false_or, view, Option.map_some, Option.some.injEq, exists_eq_left', exists_and_left]
  by_cases hl : mr.fields.length > rc.fields.length
  · rw [if_pos hl]
    refine ⟨(fun e => by cases e), fun hmm => ?_⟩
    exfalso
    have hne : mr.fields ≠ [] := by intro e; rw [e] at hlast; simp at hlast
    have hpos := List.length_pos_iff.2 hne
    obtain ⟨w, e1, _⟩ := hmm (mr.fields.length - 1) lw (by rw [← List.getLast?_eq_getElem?]; exact hlast) hfix
    obtain ⟨h1, _⟩ := List.getElem?_eq_some_iff.1 e1
    omega
  · rw [if_neg hl]
    exact matchFields_iff (by omega)

end WG.Recs
