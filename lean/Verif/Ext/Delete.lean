import Verif.Ext.Back

/-!
# Deleting records in a database with references to others (C81)
-/
namespace WG.Ext

/-- The loop of wg_delete_record over the fields, Db/dbdata.c lines 246-279, as compiled with USE_CHILD_DB: the backlink of each record of this database is removed. `none` is "Corrupt backlink
chain". -/
def unlink (r : Nat) : List Val → (Nat → List Nat) → Option (Nat → List Nat)
  | [], b => some b
  | .loc q :: l, b => if r ∈ b q then unlink r l (fun x => if x = q then (b q).erase r else b x) else none
  | .imm _ :: l, b => unlink r l b
  | .ext _ :: l, b => unlink r l b

/-- wg_delete_record, Db/dbdata.c lines 204-289, for a local record with `w` fields. Simplifications as for `setField`; the record that is gone has no more fields with records; when the chain
is corrupt the state is left as it was. -/
def deleteRec (w : Nat) (s : St) (r : Nat) : St × Int :=
  if mayDelete s r = false then (s, -1)
  else match unlink r ((List.range w).map (s.fld r)) s.back with
    | none => (s, -3)
    | some b => (⟨fun x y => if x = r then .imm 0 else s.fld x y, b⟩, 0)

theorem refs_count (s : St) (r q w : Nat) : refs s r q w = ((List.range w).map (s.fld r)).count (.loc q) := by
  induction w with
  | zero => rfl
  | succ w ih =>
    rw [refs, ih, List.range_succ, List.map_append, List.count_append, List.map_singleton, List.count_singleton]
    by_cases h : s.fld r w = .loc q
    · simp [h]
    · simp [h]

theorem unlink_spec (r : Nat) (l : List Val) : ∀ b : Nat → List Nat, (∀ q, l.count (.loc q) ≤ (b q).count r) →
    ∃ b', unlink r l b = some b' ∧ ∀ q x, (b' q).count x + (if x = r then l.count (.loc q) else 0) = (b q).count x := by
  induction l with
  | nil => intro b _; exact ⟨b, rfl, by simp⟩
  | cons v l ih =>
    intro b hb
    cases v with
    | imm n =>
      obtain ⟨b', h1, h2⟩ := ih b (fun q => by have := hb q; simpa using this)
      exact ⟨b', by rw [unlink]; exact h1, fun q x => by have := h2 q x; simpa using this⟩
    | ext n =>
      obtain ⟨b', h1, h2⟩ := ih b (fun q => by have := hb q; simpa using this)
      exact ⟨b', by rw [unlink]; exact h1, fun q x => by have := h2 q x; simpa using this⟩
    | loc p =>
      have hp := hb p
      rw [List.count_cons_self] at hp
      have hm : r ∈ b p := List.count_pos_iff.1 (by omega)
      obtain ⟨b', h1, h2⟩ := ih (fun x => if x = p then (b p).erase r else b x) (by
        intro q
        have := hb q
        by_cases e : q = p
        · subst e
          rw [if_pos rfl, List.count_erase_self]; omega
        · rw [if_neg e]
          rw [List.count_cons] at this
          omega)
      refine ⟨b', by rw [unlink, if_pos hm]; exact h1, ?_⟩
      intro q x
      have h3 := h2 q x
      by_cases e : q = p
      · subst e
        rw [if_pos rfl] at h3
        rw [List.count_cons_self]
        by_cases hx : x = r
        · subst hx
          rw [List.count_erase_self] at h3
          rw [if_pos rfl] at h3 ⊢
          omega
        · rw [List.count_erase_of_ne hx] at h3
          rw [if_neg hx] at h3 ⊢
          exact h3
      · rw [if_neg e] at h3
        rw [List.count_cons_of_ne (by simpa using fun e' => e e'.symm)]
        exact h3

theorem refs_other (s t : St) (r q : Nat) (h : ∀ y, t.fld r y = s.fld r y) (w : Nat) : refs t r q w = refs s r q w := by
  induction w with
  | zero => rfl
  | succ w ih => rw [refs, refs, ih, h]

theorem refs_none (t : St) (r q : Nat) (h : ∀ y, t.fld r y ≠ .loc q) (w : Nat) : refs t r q w = 0 := by
  induction w with
  | zero => rfl
  | succ w ih => rw [refs, ih, if_neg (h w)]

/-- C81 (deletion): a record to which nobody refers is deleted, whatever references to this database or others it has, and the lists of backlinks stay exact; a record to which another one refers
is not deleted. -/
theorem C81_delete {w : Nat} {s : St} (h : Exact w s) (r : Nat) :
    ((∀ x y, y < w → s.fld x y ≠ .loc r) → ∃ t, deleteRec w s r = (t, 0) ∧ Exact w t ∧ (∀ x y, x ≠ r → t.fld x y = s.fld x y)) ∧
    ((∃ x y, y < w ∧ s.fld x y = .loc r) → deleteRec w s r = (s, -1)) := by
  constructor
  · intro hn
    have hb : s.back r = [] := by
      cases e : s.back r with
      | nil => rfl
      | cons x l =>
        have h1 := h r x
        rw [e, List.count_cons_self, refs_count] at h1
        obtain ⟨y, hy, hv⟩ := List.mem_map.1 (List.count_pos_iff.1 (show 0 < ((List.range w).map (s.fld x)).count (.loc r) by omega))
        exact absurd hv (hn x y (List.mem_range.1 hy))
    obtain ⟨b, h1, h2⟩ := unlink_spec r ((List.range w).map (s.fld r)) s.back (fun q => by rw [← refs_count, h q r])
    refine ⟨⟨fun x y => if x = r then .imm 0 else s.fld x y, b⟩, ?_, ?_, fun x y hx => if_neg hx⟩
    · unfold deleteRec
      rw [if_neg (by simp [mayDelete, hb]), h1]
    · intro q x
      have h3 := h2 q x
      rw [← refs_count] at h3
      have h4 := h q x
      by_cases hx : x = r
      · subst hx
        rw [if_pos rfl] at h3
        rw [refs_none _ _ _ (by simp)]
        simp only
        omega
      · rw [if_neg hx] at h3
        rw [refs_other s _ x q (by simp [hx])]
        simp only
        omega
  · rintro ⟨x, y, hy, hv⟩
    have hm := exact_mem h hy hv
    unfold deleteRec
    rw [if_pos]
    have : s.back r ≠ [] := fun e => by rw [e] at hm; cases hm
    simp [mayDelete, this]

/-- What can be done with the records of a database, of `w` fields each. -/
inductive Step (w : Nat) : St → St → Prop
  | set {s t : St} {r i : Nat} {v : Val} {e : Int} : i < w → ((s.fld r i).foreign = true → v.foreign = true) → ((s.fld r i).own = true → v.foreign = false) → setField s r i v = some (t, e) → Step w s t
  | delete {s : St} (r : Nat) : Step w s (deleteRec w s r).1

/-- Any number of steps. -/
inductive Steps (w : Nat) : St → St → Prop
  | refl {s : St} : Steps w s s
  | snoc {s t u : St} : Steps w s t → Step w t u → Steps w s u

/-- C81 (histories): from an empty database, as long as no record of another database is replaced by anything else or replaces a record of this one, a record can be deleted if and only if
no field holds it. -/
theorem C81_history_partial {w : Nat} {t : St} (h : Steps w ⟨fun _ _ => .imm 0, fun _ => []⟩ t) (r : Nat) :
    (deleteRec w t r).2 = 0 ↔ ∀ x y, y < w → t.fld x y ≠ .loc r := by
  have inv : Exact w t := by
    generalize hs : (⟨fun _ _ => .imm 0, fun _ => []⟩ : St) = s at h
    have h0 : Exact w s := by
      subst hs
      intro q r
      rw [refs_none _ _ _ (by simp)]
      rfl
    clear hs
    induction h with
    | refl => exact h0
    | @snoc s _ _ st ih =>
      cases st with
      | set hi h1 h2 he =>
        obtain ⟨t', e1, e2, -⟩ := C81_backlinks_partial ih hi _ h1 h2
        rw [e1] at he
        obtain ⟨rfl, -⟩ := Prod.mk.inj (Option.some.inj he)
        exact e2
      | delete r =>
        by_cases hr : ∃ x y, y < w ∧ s.fld x y = .loc r
        · rw [(C81_delete ih r).2 hr]; exact ih
        · obtain ⟨t', e1, e2, -⟩ := (C81_delete ih r).1 (fun x y hy e => hr ⟨x, y, hy, e⟩)
          rw [e1]; exact e2
  constructor
  · intro h0 x y hy e
    rw [(C81_delete inv r).2 ⟨x, y, hy, e⟩] at h0
    exact absurd h0 (show (-1 : Int) ≠ 0 by decide)
  · intro hn
    obtain ⟨t', e1, -⟩ := (C81_delete inv r).1 hn
    rw [e1]

/-- A record with a reference to this database and one to another: it is deleted, and then the record that it referred to. -/
theorem demo_delete :
    ∃ s t, Steps 2 ⟨fun _ _ => .imm 0, fun _ => []⟩ s ∧ s.fld 1 0 = .loc 2 ∧ s.fld 1 1 = .ext true ∧ (deleteRec 2 s 2).2 = -1 ∧ deleteRec 2 s 1 = (t, 0) ∧ (deleteRec 2 t 2).2 = 0 := by
  refine ⟨_, _, .snoc (.snoc .refl (.set (r := 1) (i := 0) (v := .loc 2) (by decide) (by decide) (by decide) rfl)) (.set (r := 1) (i := 1) (v := .ext true) (by decide) (by decide) (by decide) rfl),
    rfl, rfl, rfl, rfl, rfl⟩

end WG.Ext
