import Verif.Ext.Model
import Verif.Ext.Spec
import Verif.Encoding.Lemmas
import Verif.Encoding.Props

/-!
# Values of other databases (C81)
-/
namespace WG.Ext
open WG

theorem aligned_iff (x : Word) : x &&& 7#64 = 0#64 ↔ x.toNat % 8 = 0 := by
  have e : (x &&& 7#64).toNat = x.toNat % 8 := by
    rw [BitVec.toNat_and, show (7#64 : Word).toNat = 2 ^ 3 - 1 from by decide, Nat.and_two_pow_sub_one_eq_mod]
  rw [← e]
  constructor
  · intro h; rw [h]; rfl
  · intro h; exact BitVec.eq_of_toNat_eq h

theorem sub_aligned (a b : Word) : (a - b) &&& 7#64 = 0#64 ↔ (a.toNat + 2 ^ 64 - b.toNat) % 8 = 0 := by
  rw [aligned_iff, BitVec.toNat_sub]
  have := b.isLt
  omega

theorem andnot3 (off c : Word) (h : off &&& 7#64 = 0#64) : (off ||| c) &&& ~~~3#64 = off ||| (c &&& ~~~3#64) := by
  have h3 : off &&& ~~~3#64 = off := by
    have := aligned_or_andnot off 0#64 h (by decide)
    have h2 := congrArg (fun x => x &&& ~~~3#64) this
    simp only [BitVec.or_zero, BitVec.and_assoc] at h2
    rw [show (~~~7#64 : Word) &&& ~~~3#64 = ~~~7#64 from by decide] at h2
    rw [← h2]
    have t := aligned_or_andnot off 0#64 h (by decide)
    simpa using t
  rw [BitVec.and_or_distrib_right, h3]

theorem or_four (off : Word) (h : off &&& 7#64 = 0#64) : off ||| 4#64 = off + 4#64 := by
  refine (BitVec.add_eq_or_of_and_eq_zero off 4#64 ?_).symm
  rw [show (4#64 : Word) = 7#64 &&& 4#64 from by decide, ← BitVec.and_assoc, h]; decide

/-- A reference is a pointer with the tag of its kind. -/
theorem refers_ptr {base v a : Word} {k : Kind} (h : Refers base v k a) : isPtr v = true ∧ v &&& 7#64 = k.tag := by
  obtain ⟨h1, h2, rfl⟩ := h
  have ha := (sub_aligned a base).2 h1
  have h7 : ((a - base) ||| k.tag) &&& 7#64 = k.tag := by rw [aligned_or_and _ _ _ ha (by decide)]; cases k <;> decide
  have h3 : ((a - base) ||| k.tag) &&& 3#64 = k.tag &&& 3#64 := aligned_or_and _ _ _ ha (by decide)
  refine ⟨?_, h7⟩
  unfold isPtr
  rw [h3]
  have hne : (a - base) ||| k.tag ≠ 0#64 := by
    intro e
    cases k with
    | record =>
      simp only [Kind.tag, BitVec.or_zero] at e
      apply h2
      have := congrArg (· + base) e
      simp only [BitVec.sub_add_cancel, BitVec.zero_add] at this
      exact this
    | _ => rw [e] at h7; revert h7; decide
  cases k <;> simp_all [Kind.tag]

/-- C81 (translation): a value of another database, translated, refers to the same object. -/
theorem C81_same_object {d e : Db} (hb : d.base.toNat % 8 = 0) (he : e.base.toNat % 8 = 0) {v a : Word} {k : Kind} (h : Refers e.base v k a) (hd : a ≠ d.base) :
    Refers d.base (encodeExternal d e v) k a := by
  obtain ⟨hp, ht⟩ := refers_ptr h
  obtain ⟨h1, h2, rfl⟩ := h
  have ha := (sub_aligned a e.base).2 h1
  have key : (a - e.base) + (e.base - d.base) = a - d.base := by
    rw [BitVec.sub_eq_add_neg, BitVec.sub_eq_add_neg, BitVec.sub_eq_add_neg, BitVec.add_assoc, ← BitVec.add_assoc (-e.base), BitVec.add_comm (-e.base), BitVec.add_right_neg, BitVec.zero_add]
  refine ⟨by have := a.isLt; have := e.base.isLt; have := d.base.isLt; omega, hd, ?_⟩
  unfold encodeExternal translate
  simp only [hp, ht, if_true]
  have d7 : ((a - e.base) ||| k.tag) &&& ~~~7#64 = a - e.base := aligned_or_andnot _ _ ha (by cases k <;> decide)
  cases k with
  | record => simp [Kind.tag, encodeDatarec, decodeDatarec, key]
  | longstr =>
    rw [if_neg (by decide), if_pos (by rfl)]
    unfold encodeLongstr decodeLongstr
    rw [d7, key]; rfl
  | shortstr =>
    rw [if_neg (by decide), if_neg (by decide), if_pos (by rfl)]
    unfold encodeShortstr decodeShortstr
    rw [d7, key]; rfl
  | double =>
    rw [if_neg (by decide), if_neg (by decide), if_neg (by decide), if_pos (by rfl)]
    unfold encodeFulldouble decodeFulldouble
    rw [d7, key]; rfl
  | int =>
    rw [if_neg (by decide), if_neg (by decide), if_neg (by decide), if_neg (by decide), if_pos (Or.inl (by rfl))]
    unfold encodeFullintOffset decodeFullintOffset
    rw [show (Kind.int.tag : Word) = 1#64 from rfl, aligned_or_andnot3 _ ha, key]

/-- C81 (immediate values): a value that is no reference means the same everywhere. -/
theorem C81_immediate {d e : Db} {v : Word} (h : v = 0#64 ∨ v &&& 3#64 = 3#64) : encodeExternal d e v = v ∧ ptrOwner d v = some d.base := by
  have hp : isPtr v = false := by
    unfold isPtr
    rcases h with h | h <;> simp [h]
  unfold encodeExternal translate ptrOwner
  simp [hp]

theorem toInt_small {x : Word} (h : x.toNat < 2 ^ 63) : x.toInt = x.toNat := by
  rw [BitVec.toInt_eq_toNat_cond, if_pos (by omega)]

theorem toInt_sub {a b : Word} (ha : a.toNat < 2 ^ 62) (hb : b.toNat < 2 ^ 62) : (a - b).toInt = (a.toNat : Int) - b.toNat := by
  rw [BitVec.toInt_sub, toInt_small (by omega), toInt_small (by omega)]
  exact Int.bmod_eq_of_le (by omega) (by omega)

theorem toInt_add4 {x : Word} (h1 : -(2 ^ 62) ≤ x.toInt) (h2 : x.toInt ≤ 2 ^ 62) : (x + 4#64).toInt = x.toInt + 4 := by
  rw [BitVec.toInt_add, show (4#64 : Word).toInt = 4 from by decide]
  exact Int.bmod_eq_of_le (by omega) (by omega)

theorem toInt_add {x s : Word} (h1 : -(2 ^ 62) ≤ x.toInt) (h2 : x.toInt ≤ 2 ^ 62) (hs : s.toNat < 2 ^ 62) : (x + s).toInt = x.toInt + s.toNat := by
  rw [BitVec.toInt_add, toInt_small (x := s) (by omega)]
  exact Int.bmod_eq_of_le (by omega) (by omega)

theorem base_add (b e : Word) : b + (e - b) = e := by
  rw [BitVec.add_comm, BitVec.sub_add_cancel]

/-- The offset that get_ptr_owner looks for is that of the object, or 4 more. -/
theorem owner_offset {base v a : Word} {k : Kind} (h : Refers base v k a) : decodeFullintOffset v = (a - base) ∨ decodeFullintOffset v = (a - base) + 4#64 := by
  obtain ⟨h1, _, rfl⟩ := h
  have ha := (sub_aligned a base).2 h1
  unfold decodeFullintOffset
  rw [andnot3 _ _ ha]
  cases k with
  | record => left; simp [Kind.tag]
  | int => left; rw [show (Kind.int.tag &&& ~~~3#64 : Word) = 0#64 from by decide]; simp
  | double => left; rw [show (Kind.double.tag &&& ~~~3#64 : Word) = 0#64 from by decide]; simp
  | longstr => right; rw [show (Kind.longstr.tag &&& ~~~3#64 : Word) = 4#64 from by decide]; exact or_four _ ha
  | shortstr => right; rw [show (Kind.shortstr.tag &&& ~~~3#64 : Word) = 4#64 from by decide]; exact or_four _ ha

/-- The databases that are known: the local one first. -/
def known (d : Db) : List Region := ⟨d.base, d.size⟩ :: d.exts.map fun x => ⟨d.base + x.1, x.2⟩

/-- Two regions have no byte in common. -/
def Apart (r s : Region) : Prop := r.base.toNat + r.size.toNat ≤ s.base.toNat ∨ s.base.toNat + s.size.toNat ≤ r.base.toNat

theorem findOff_spec {base off a : Word} (hb : base.toNat < 2 ^ 62) (ha : a.toNat + 8 < 2 ^ 62) (ho : off.toInt = (a.toNat : Int) - base.toNat ∨ off.toInt = (a.toNat : Int) - base.toNat + 4)
    (l : List (Word × Word)) (hu : ∀ x ∈ l, Region.User ⟨base + x.1, x.2⟩) :
    (∀ x ∈ l, Region.Has ⟨base + x.1, x.2⟩ a → (∀ y ∈ l, y = x ∨ Region.Not ⟨base + y.1, y.2⟩ a) → findOff base off l = some (base + x.1)) ∧
    ((∀ y ∈ l, Region.Not ⟨base + y.1, y.2⟩ a) → findOff base off l = none) := by
  have cmp : ∀ o s : Word, Region.User ⟨base + o, s⟩ → o.toInt = ((base + o).toNat : Int) - base.toNat ∧ (o + s).toInt = ((base + o).toNat : Int) - base.toNat + s.toNat := by
    intro o s h
    obtain ⟨h1, _⟩ := h
    simp only at h1
    have e : o = (base + o) - base := by rw [BitVec.add_comm, BitVec.add_sub_cancel]
    have e1 : o.toInt = ((base + o).toNat : Int) - base.toNat := by
      conv => lhs; rw [e]
      exact toInt_sub (by omega) hb
    refine ⟨e1, ?_⟩
    rw [toInt_add (by omega) (by omega) (by omega), e1]
  induction l with
  | nil => exact ⟨fun x hx => absurd hx (by simp), fun _ => rfl⟩
  | cons y l ih =>
    obtain ⟨o, s⟩ := y
    have hyu := hu (o, s) (by simp)
    obtain ⟨c1, c2⟩ := cmp o s hyu
    have ih := ih (fun x hx => hu x (by simp [hx]))
    have hal := hyu.2
    have miss : Region.Not ⟨base + o, s⟩ a → findOff base off ((o, s) :: l) = findOff base off l := by
      intro h
      rw [findOff, if_neg]
      simp only [BitVec.slt_iff_toInt_lt, c1, c2]
      unfold Region.Not at h
      simp only at h
      omega
    constructor
    · intro x hx hh hr
      rcases hr (o, s) (by simp) with e | e
      · subst e
        rw [findOff, if_pos]
        simp only [BitVec.slt_iff_toInt_lt, c1, c2]
        unfold Region.Has at hh
        simp only at hh
        omega
      · rw [miss e]
        rcases List.mem_cons.1 hx with h' | h'
        · subst h'
          exfalso; unfold Region.Has at hh; unfold Region.Not at e; simp only at e hh; omega
        · exact ih.1 x h' hh (fun y hy => hr y (by simp [hy]))
    · intro h
      rw [miss (h (o, s) (by simp))]
      exact ih.2 (fun y hy => h y (by simp [hy]))

theorem apart_not {r s : Region} {a : Word} (h : r.Has a) (hs : Apart r s) : s.Not a := by
  unfold Region.Has at h; unfold Apart at hs; unfold Region.Not
  omega

theorem has_or {d : Db} (hap : ∀ r ∈ known d, ∀ s ∈ known d, r = s ∨ Apart r s) {a : Word} {r : Region} (hr : r ∈ known d) (h : r.Has a) : ∀ s ∈ known d, s = r ∨ s.Not a := by
  intro s hs
  rcases hap r hr s hs with e | e
  · exact Or.inl e.symm
  · exact Or.inr (apart_not h e)

theorem ext_eq {base : Word} {x y : Word × Word} (h : (⟨base + y.1, y.2⟩ : Region) = ⟨base + x.1, x.2⟩) : y = x := by
  simp only [Region.mk.injEq] at h
  obtain ⟨h1, h2⟩ := h
  have := congrArg (· - base) h1
  simp only [BitVec.add_comm base, BitVec.add_sub_cancel] at this
  exact Prod.ext this h2

/-- C81 (owner of a value): a reference to an object of the database itself or of a registered database is recognised as such, and a reference to anything else is not. -/
theorem C81_owner {d : Db} (hu : ∀ r ∈ known d, r.User) (hap : ∀ r ∈ known d, ∀ s ∈ known d, r = s ∨ Apart r s) {v a : Word} {k : Kind} (hv : Refers d.base v k a)
    (ha : a.toNat + 8 < 2 ^ 62) :
    (∀ r ∈ known d, r.Has a → ptrOwner d v = some r.base) ∧ ((∀ r ∈ known d, r.Not a) → ptrOwner d v = none) := by
  obtain ⟨hp, ht⟩ := refers_ptr hv
  have h0 := hu ⟨d.base, d.size⟩ (by simp [known])
  unfold Region.User at h0
  simp only at h0
  have hs : (a - d.base).toInt = (a.toNat : Int) - d.base.toNat := toInt_sub (by omega) (by omega)
  have ho : (decodeFullintOffset v).toInt = (a.toNat : Int) - d.base.toNat ∨ (decodeFullintOffset v).toInt = (a.toNat : Int) - d.base.toNat + 4 := by
    rcases owner_offset hv with e | e
    · left; rw [e, hs]
    · right; rw [e, toInt_add4 (by omega) (by omega), hs]
  have hal := hv.1
  have hne : a.toNat ≠ d.base.toNat := fun e => hv.2.1 (BitVec.eq_of_toNat_eq e)
  have hz : decodeFullintOffset v ≠ 0#64 := by
    intro e
    rw [e] at ho
    simp only [BitVec.toInt_zero] at ho
    omega
  have hsz : d.size.toInt = d.size.toNat := toInt_small (by omega)
  have spec := findOff_spec (off := decodeFullintOffset v) (a := a) (base := d.base) (by omega) ha ho d.exts
    (fun x hx => hu _ (List.mem_cons_of_mem _ (List.mem_map.2 ⟨x, hx, rfl⟩)))
  have hsw : (if v &&& 7#64 = 0#64 ∨ v &&& 7#64 = 4#64 ∨ v &&& 7#64 = 6#64 ∨ v &&& 7#64 = 2#64 ∨ v &&& 7#64 = 1#64 ∨ v &&& 7#64 = 5#64 then decodeFullintOffset v else 0#64) = decodeFullintOffset v := by
    rw [ht]; cases k <;> rfl
  have how : ptrOwner d v = if isLocal d (decodeFullintOffset v) = true then some d.base else findOff d.base (decodeFullintOffset v) d.exts := by
    unfold ptrOwner
    simp only [hp, if_true, hsw]
    rw [if_neg hz]
  have hloc : isLocal d (decodeFullintOffset v) = true ↔ 0 < (decodeFullintOffset v).toInt ∧ (decodeFullintOffset v).toInt < d.size.toNat := by
    unfold isLocal
    rw [Bool.and_eq_true, BitVec.slt_iff_toInt_lt, BitVec.slt_iff_toInt_lt, hsz, BitVec.toInt_zero]
  have hnl : Region.Not ⟨d.base, d.size⟩ a → isLocal d (decodeFullintOffset v) ≠ true := by
    intro h
    rw [Ne, hloc]
    unfold Region.Not at h
    simp only at h
    omega
  constructor
  · intro r hr hh
    rw [how]
    have hor := has_or hap hr hh
    rcases List.mem_cons.1 hr with e | e
    · subst e
      rw [if_pos]
      rw [hloc]
      unfold Region.Has at hh
      simp only at hh
      omega
    · obtain ⟨x, hx, rfl⟩ := List.mem_map.1 e
      by_cases hl : (⟨d.base, d.size⟩ : Region) = ⟨d.base + x.1, x.2⟩
      · rw [← hl] at hh
        rw [if_pos]
        · simp only [Region.mk.injEq] at hl
          rw [← hl.1]
        · rw [hloc]
          unfold Region.Has at hh
          simp only at hh
          omega
      · rw [if_neg (hnl ((hor ⟨d.base, d.size⟩ (by simp [known])).resolve_left hl))]
        refine spec.1 x hx hh (fun y hy => ?_)
        rcases hor _ (List.mem_cons_of_mem _ (List.mem_map.2 ⟨y, hy, rfl⟩)) with h | h
        · exact Or.inl (ext_eq h)
        · exact Or.inr h
  · intro h
    rw [how, if_neg (hnl (h _ (by simp [known])))]
    exact spec.2 (fun y hy => h _ (List.mem_cons_of_mem _ (List.mem_map.2 ⟨y, hy, rfl⟩)))

/-- The tests on a record's address. -/
theorem in_region {b s a : Word} (hu : Region.User ⟨b, s⟩) (ha : a.toNat + 8 < 2 ^ 62) :
    (Region.Has ⟨b, s⟩ a → b.slt a ∧ a.slt (b + s)) ∧ (Region.Not ⟨b, s⟩ a → ¬ (b.slt a ∧ a.slt (b + s))) := by
  unfold Region.User at hu
  simp only at hu
  have e1 : b.toInt = b.toNat := toInt_small (by omega)
  have e2 : a.toInt = a.toNat := toInt_small (by omega)
  have e3 : (b + s).toInt = (b.toNat : Int) + s.toNat := by rw [toInt_add (by omega) (by omega) (by omega), e1]
  unfold Region.Has Region.Not
  simp only [BitVec.slt_iff_toInt_lt, e1, e2, e3]
  omega

theorem findRec_spec {base a : Word} (ha : a.toNat + 8 < 2 ^ 62) (l : List (Word × Word)) (hu : ∀ x ∈ l, Region.User ⟨base + x.1, x.2⟩) :
    (∀ x ∈ l, Region.Has ⟨base + x.1, x.2⟩ a → (∀ y ∈ l, y = x ∨ Region.Not ⟨base + y.1, y.2⟩ a) → findRec base a l = some (base + x.1)) ∧
    ((∀ y ∈ l, Region.Not ⟨base + y.1, y.2⟩ a) → findRec base a l = none) := by
  induction l with
  | nil => exact ⟨fun x hx => absurd hx (by simp), fun _ => rfl⟩
  | cons y l ih =>
    obtain ⟨o, s⟩ := y
    have ih := ih (fun x hx => hu x (by simp [hx]))
    obtain ⟨i1, i2⟩ := in_region (hu (o, s) (by simp)) ha
    constructor
    · intro x hx hh hr
      rcases hr (o, s) (by simp) with e | e
      · subst e
        rw [findRec, if_pos (i1 hh)]
      · rw [findRec, if_neg (i2 e)]
        rcases List.mem_cons.1 hx with h' | h'
        · subst h'; exact absurd (i1 hh) (i2 e)
        · exact ih.1 x h' hh (fun y hy => hr y (by simp [hy]))
    · intro h
      rw [findRec, if_neg (i2 (h (o, s) (by simp)))]
      exact ih.2 (fun y hy => h y (by simp [hy]))

/-- C81 (owner of a record): the same for the address of a record. -/
theorem C81_rec_owner {d : Db} (hu : ∀ r ∈ known d, r.User) (hap : ∀ r ∈ known d, ∀ s ∈ known d, r = s ∨ Apart r s) {a : Word} (ha : a.toNat + 8 < 2 ^ 62) :
    (∀ r ∈ known d, r.Has a → recOwner d a = some r.base) ∧ ((∀ r ∈ known d, r.Not a) → recOwner d a = none) := by
  obtain ⟨i1, i2⟩ := in_region (hu ⟨d.base, d.size⟩ (by simp [known])) ha
  have spec := findRec_spec (base := d.base) ha d.exts (fun x hx => hu _ (List.mem_cons_of_mem _ (List.mem_map.2 ⟨x, hx, rfl⟩)))
  unfold recOwner
  constructor
  · intro r hr hh
    have hor := has_or hap hr hh
    rcases List.mem_cons.1 hr with e | e
    · subst e; rw [if_pos (i1 hh)]
    · obtain ⟨x, hx, rfl⟩ := List.mem_map.1 e
      by_cases hl : (⟨d.base, d.size⟩ : Region) = ⟨d.base + x.1, x.2⟩
      · rw [← hl] at hh
        rw [if_pos (i1 hh)]
        simp only [Region.mk.injEq] at hl
        rw [← hl.1]
      · rw [if_neg (i2 ((hor ⟨d.base, d.size⟩ (by simp [known])).resolve_left hl))]
        refine spec.1 x hx hh (fun y hy => ?_)
        rcases hor _ (List.mem_cons_of_mem _ (List.mem_map.2 ⟨y, hy, rfl⟩)) with h | h
        · exact Or.inl (ext_eq h)
        · exact Or.inr h
  · intro h
    rw [if_neg (i2 (h _ (by simp [known])))]
    exact spec.2 (fun y hy => h _ (List.mem_cons_of_mem _ (List.mem_map.2 ⟨y, hy, rfl⟩)))

/-- C81 (registration): below the limit of 20, and without key and indexes, the database is known after its registration, and those known before stay; no index may be created from then on. -/
theorem C81_register_partial (d e : Db) (hk : d.key = 0#64) (hi : d.indexes = 0) (hn : d.exts.length < 20) :
    (register d e).2 = 0 ∧ known (register d e).1 = known d ++ [⟨e.base, e.size⟩] ∧ indexAllowed (register d e).1 = false := by
  unfold register
  rw [if_neg (by simp [hk]), if_neg (by omega), if_neg (by unfold maxExt; omega)]
  refine ⟨rfl, ?_, ?_⟩
  · simp [known, base_add]
  · simp [indexAllowed]

/-- C81 (refusal): a shared database, or one with indexes, takes no references to others. -/
theorem C81_refused (d e : Db) (h : d.key ≠ 0#64 ∨ 0 < d.indexes) : register d e = (d, -1) := by
  unfold register
  by_cases hk : d.key = 0#64
  · rw [if_neg (by simp [hk]), if_pos (h.resolve_left (by simp [hk]))]
  · rw [if_pos hk]

end WG.Ext
