import Verif.Ext.Props

/-!
# Backlinks in a database with references to others (C81)

The part of wg_set_field that keeps the lists of backlinks, as compiled with USE_CHILD_DB, and what wg_delete_record makes of these lists.
-/
namespace WG.Ext

/-- A field: no record, a record of this database, or a record of another one, of which it is said whether its own list of backlinks is empty. -/
inductive Val
  | imm (n : Nat) | loc (r : Nat) | ext (linked : Bool)
deriving DecidableEq

/-- The fields of the records and, for each, the list of backlinks. -/
structure St where
  fld : Nat → Nat → Val
  back : Nat → List Nat

/-- Db/dbdata.c lines 613-801 (wg_set_field) for an external value that is recognised. `offset_owner` (lines 623, 688-689) is that of the new value, and is used for the old value as well (lines 704-705). Simplifications:
allocation does not fail, nothing is logged or indexed; strings have no backlinks. The list of backlinks of a record of another database holds offsets of that database: following them is
undefined (`none`); if it is empty the chain is taken as corrupt (lines 723-724). -/
def setField (s : St) (r i : Nat) (v : Val) : Option (St × Int) :=
  let local_ : Bool := match v with | .ext _ => false | _ => true
  let removed : Option (St × Int) := match s.fld r i, local_ with
    | .loc q, true => if r ∈ s.back q then some ({ s with back := fun x => if x = q then (s.back q).erase r else s.back x }, 0) else some (s, -4)
    | .ext linked, true => if linked then none else some (s, -4)
    | _, _ => some (s, 0)
  removed.bind fun (s, e) =>
    if e ≠ 0 then some (s, e)
    else
      let s := { s with fld := fun x y => if x = r ∧ y = i then v else s.fld x y }
      match v with
      | .loc q => some ({ s with back := fun x => if x = q then s.back q ++ [r] else s.back x }, 0)
      | _ => some (s, 0)

/-- Db/dbdata.c lines 213-228: a record with backlinks is not deleted (-1). -/
def mayDelete (s : St) (r : Nat) : Bool := decide (s.back r = [])

/-! ## Specification -/

/-- How many of the first `w` fields of record `r` hold record `q` of this database. -/
def refs (s : St) (r q : Nat) : Nat → Nat
  | 0 => 0
  | w + 1 => refs s r q w + if s.fld r w = .loc q then 1 else 0

/-- The lists of backlinks name each record as often as it refers to their owner. -/
def Exact (w : Nat) (s : St) : Prop := ∀ q r, (s.back q).count r = refs s r q w

/-- Whether the value is a record of another database. -/
def Val.foreign : Val → Bool
  | .ext _ => true
  | _ => false

/-- Whether the value is a record of this database. -/
def Val.own : Val → Bool
  | .loc _ => true
  | _ => false

/-! ## Proofs -/

theorem refs_set (s : St) (b : Nat → List Nat) (r i : Nat) (v : Val) (r' q : Nat) (w : Nat) :
    refs ⟨fun x y => if x = r ∧ y = i then v else s.fld x y, b⟩ r' q w + (if r' = r ∧ i < w ∧ s.fld r i = .loc q then 1 else 0)
      = refs s r' q w + if r' = r ∧ i < w ∧ v = .loc q then 1 else 0 := by
  induction w with
  | zero => simp [refs]
  | succ w ih =>
    simp only [refs]
    by_cases hr : r' = r
    · subst hr
      by_cases hw : w = i
      · subst hw
        simp only [Nat.lt_irrefl, false_and, and_false, if_false, Nat.add_zero, Nat.lt_succ_self, true_and, and_self, if_true] at ih ⊢
        omega
      · have : i < w + 1 ↔ i < w := by omega
        simp only [this, hw, and_false, if_false, true_and] at ih ⊢
        omega
    · simp only [hr, false_and, if_false, Nat.add_zero] at ih ⊢
      omega

theorem exact_mem {w : Nat} {s : St} (h : Exact w s) {r i q : Nat} (hi : i < w) (hq : s.fld r i = .loc q) : r ∈ s.back q := by
  rw [← List.count_pos_iff, h q r]
  have : ∀ w, i < w → 0 < refs s r q w := by
    intro w
    induction w with
    | zero => intro h; omega
    | succ w ih =>
      intro h
      rw [refs]
      by_cases e : i = w
      · subst e; rw [if_pos hq]; omega
      · have := ih (by omega); omega
  exact this w hi

/-- C81 (backlinks): a field is set and the lists of backlinks stay exact, if a record of another database is not replaced by anything else, and does not replace a record of this one. -/
theorem C81_backlinks_partial {w : Nat} {s : St} (h : Exact w s) {r i : Nat} (hi : i < w) (v : Val)
    (h1 : (s.fld r i).foreign = true → v.foreign = true) (h2 : (s.fld r i).own = true → v.foreign = false) :
    ∃ t, setField s r i v = some (t, 0) ∧ Exact w t ∧ ∀ x y, t.fld x y = if x = r ∧ y = i then v else s.fld x y := by
  have add : ∀ (b : Nat → List Nat), (∀ q x, (b q).count x + (if x = r ∧ s.fld r i = .loc q then 1 else 0) = (s.back q).count x) →
      ∃ t, (match v with
        | .loc q => some (({ fld := fun x y => if x = r ∧ y = i then v else s.fld x y, back := fun x => if x = q then b q ++ [r] else b x } : St), (0 : Int))
        | _ => some (⟨fun x y => if x = r ∧ y = i then v else s.fld x y, b⟩, 0)) = some (t, 0) ∧ Exact w t ∧ ∀ x y, t.fld x y = if x = r ∧ y = i then v else s.fld x y := by
    intro b hb
    have fin : ∀ b' : Nat → List Nat, (∀ q x, (b' q).count x = (b q).count x + if x = r ∧ v = .loc q then 1 else 0) → Exact w ⟨fun x y => if x = r ∧ y = i then v else s.fld x y, b'⟩ := by
      intro b' hb' q x
      have e1 := refs_set s b' r i v x q w
      have e2 := hb q x
      have e3 := hb' q x
      have e4 := h q x
      simp only [hi, true_and] at e1
      simp only
      omega
    cases v with
    | imm n => exact ⟨_, rfl, fin b (by simp), fun _ _ => rfl⟩
    | ext l => exact ⟨_, rfl, fin b (by simp), fun _ _ => rfl⟩
    | loc q =>
      refine ⟨_, rfl, fin _ ?_, fun _ _ => rfl⟩
      intro q' x
      by_cases e : q' = q
      · subst e
        rw [if_pos rfl, List.count_append, List.count_singleton]
        by_cases hx : x = r
        · subst hx; simp
        · have : ¬ r = x := fun e => hx e.symm
          simp [hx, this]
      · have : ¬ q = q' := fun e' => e e'.symm
        rw [if_neg e]; simp [this]
  have skip : (∀ q, s.fld r i ≠ .loc q) → ∀ q x, (s.back q).count x + (if x = r ∧ s.fld r i = .loc q then 1 else 0) = (s.back q).count x := by
    intro hn q x; rw [if_neg (fun e => hn q e.2)]; rfl
  unfold setField
  cases hf : s.fld r i with
  | imm n =>
    have := add s.back (skip (by simp [hf]))
    cases v <;> simpa using this
  | ext l =>
    rw [hf] at h1
    cases v with
    | ext m => have := add s.back (skip (by simp [hf])); simpa using this
    | imm n => exact absurd (h1 rfl) (by simp [Val.foreign])
    | loc q => exact absurd (h1 rfl) (by simp [Val.foreign])
  | loc q =>
    rw [hf] at h2
    have hm := exact_mem h hi hf
    have hb : ∀ q' x, ((if q' = q then (s.back q).erase r else s.back q').count x) + (if x = r ∧ s.fld r i = .loc q' then 1 else 0) = (s.back q').count x := by
      intro q' x
      by_cases e : q' = q
      · subst e
        rw [if_pos rfl, List.count_erase]
        by_cases hx : x = r
        · subst hx
          have := List.count_pos_iff.2 hm
          simp [hf]; omega
        · have : ¬ r = x := fun e => hx e.symm
          simp [hx, this]
      · have : ¬ q = q' := fun e' => e e'.symm
        simp [e, hf, this]
    have := add (fun x => if x = q then (s.back q).erase r else s.back x) hb
    cases v with
    | ext m => exact absurd (h2 rfl) (by simp [Val.foreign])
    | imm n => simpa [hm] using this
    | loc q' => simpa [hm] using this

/-! ## Cases and counterexamples -/

/-- Record 1 refers to record 2 in its field 0. -/
def one : St := ⟨fun x y => if x = 1 ∧ y = 0 then .loc 2 else .imm 0, fun x => if x = 2 then [1] else []⟩

theorem demo_one : Exact 2 one ∧ ∃ t, setField one 1 0 (.loc 3) = some (t, 0) ∧ t.back 2 = [] ∧ t.back 3 = [1] := by
  refine ⟨?_, _, rfl, rfl, rfl⟩
  intro q r
  simp only [one, refs]
  by_cases hq : q = 2
  · subst hq
    by_cases hr : r = 1
    · subst hr; rfl
    · have : ¬ 1 = r := fun e => hr e.symm
      simp [hr, this]
  · have : ¬ 2 = q := fun e => hq e.symm
    by_cases hr : r = 1 <;> simp [hq, hr, this]

/-- A record of another database replaces a record of this one: the backlink stays, and the record that nobody refers to any more can not be deleted. -/
theorem C81_replaced_counterexample (l : Bool) :
    Exact 2 one ∧ ∃ t, setField one 1 0 (.ext l) = some (t, 0) ∧ (∀ x y, t.fld x y ≠ .loc 2) ∧ t.back 2 = [1] ∧ mayDelete t 2 = false := by
  refine ⟨demo_one.1, _, rfl, ?_, rfl, rfl⟩
  intro x y
  simp only [one]
  by_cases h : x = 1 ∧ y = 0 <;> simp [h]

/-- A field that holds a record of another database is not set to a value of this one; if the list of backlinks of that record is not empty, offsets of the other database are followed in this one. -/
theorem C81_foreign_counterexample (n : Nat) :
    let s : St := ⟨fun x y => if x = 1 ∧ y = 0 then .ext false else .imm 0, fun _ => []⟩
    let s' : St := ⟨fun x y => if x = 1 ∧ y = 0 then .ext true else .imm 0, fun _ => []⟩
    setField s 1 0 (.imm n) = some (s, -4) ∧ setField s' 1 0 (.imm n) = none := ⟨rfl, rfl⟩

/-- The 21st registration answers 0 and does nothing. -/
theorem C81_full_counterexample : ∃ d e : Db, (register d e).2 = 0 ∧ (register d e).1 = d ∧ (⟨e.base, e.size⟩ : Region) ∉ known d := by
  refine ⟨⟨4096#64, 4096#64, 0#64, 0, List.replicate 20 (8192#64, 4096#64)⟩, ⟨65536#64, 4096#64, 0#64, 0, []⟩, rfl, rfl, ?_⟩
  simp only [known, List.map_replicate, List.mem_cons, List.mem_replicate, Region.mk.injEq, not_or, not_and]
  decide

/-- A database and two others, one of them below it in memory; an object of each is recognised, and one of a database that is not registered is not. -/
theorem demo_owner :
    let d : Db := ⟨0x10000#64, 4096#64, 0#64, 0, []⟩
    let e1 : Db := ⟨0x4000#64, 8192#64, 0#64, 0, []⟩
    let e2 : Db := ⟨0x20000#64, 4096#64, 0#64, 0, []⟩
    let d' := (register (register d e1).1 e2).1
    (∀ r ∈ known d', r.User) ∧ (∀ r ∈ known d', ∀ s ∈ known d', r = s ∨ Apart r s) ∧ Refers e1.base 0x64#64 .longstr 0x4060#64 ∧
    ptrOwner d' (encodeExternal d' e1 0x64#64) = some e1.base ∧ ptrOwner d' (encodeExternal d' e2 0x60#64) = some e2.base ∧ ptrOwner d' 0x60#64 = some d.base ∧
    recOwner d' 0x20060#64 = some e2.base ∧ recOwner d' 0x30000#64 = none ∧ ptrOwner d' 0x20060#64 = none := by
  refine ⟨?_, ?_, ?_, by decide +kernel, by decide +kernel, by decide +kernel, by decide +kernel, by decide +kernel, by decide +kernel⟩
  · simp only [known, register, Region.User]; decide +kernel
  · intro r hr s hs
    simp [known, register, maxExt] at hr hs
    rcases hr with rfl | rfl | rfl <;> rcases hs with rfl | rfl | rfl <;> first | exact Or.inl rfl | (right; unfold Apart; decide +kernel)
  · unfold Refers; decide +kernel

end WG.Ext
