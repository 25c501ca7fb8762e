import Verif.Records.Ops3
/-! # No string is left behind with reference count 0 -/
namespace WG.Recs

variable {h h' : Heap} {ι : Type}

/-- A string whose count is 0 had count 0 before. -/
def Quiet (h h' : Heap) : Prop := ∀ o s', h'.lstrs o = some s' → s'.refc ≤ 0 → ∃ s, h.lstrs o = some s ∧ s.refc ≤ 0

theorem Quiet.refl (h : Heap) : Quiet h h := fun _ s e hz => ⟨s, e, hz⟩
theorem Quiet.trans {h1 h2 h3 : Heap} (a : Quiet h1 h2) (b : Quiet h2 h3) : Quiet h1 h3 := by
  intro o s e hz
  obtain ⟨s2, e2, z2⟩ := b o s e hz
  exact a o s2 e2 z2
theorem Quiet.of_eq (e : h'.lstrs = h.lstrs) : Quiet h h' := fun o s he hz => ⟨s, by rw [← e]; exact he, hz⟩

theorem setChain_quiet (b : Nat) (loc : Option Word) (w : Word) : Quiet h (h.setChain b loc w) := by
  cases loc with
  | none => exact Quiet.of_eq rfl
  | some x =>
    intro o s e hz
    simp only [Heap.setChain] at e
    by_cases ho : o = decodeLongstr x
    · subst ho
      rw [upd_self] at e
      cases hs : h.lstrs (decodeLongstr x) with
      | none => rw [hs] at e; cases e
      | some s0 => rw [hs] at e; cases e; exact ⟨s0, rfl, hz⟩
    · rw [upd_ne _ _ ho] at e; exact ⟨s, e, hz⟩

theorem unlinkStr_quiet (b : Nat) (w : Word) : ∀ (n : Nat) (loc : Option Word) (cur : Word), unlinkStr h b w n loc cur = some h' → Quiet h h'
  | 0, _, _, e => by simp [unlinkStr] at e
  | n + 1, loc, cur, e => by
    rw [unlinkStr] at e
    by_cases h0 : cur = 0#64
    · rw [if_pos h0] at e; cases e; exact Quiet.refl h
    · rw [if_neg h0] at e
      cases hs : h.lstrs (decodeLongstr cur) with
      | none => rw [hs] at e; cases e
      | some s =>
        rw [hs] at e
        dsimp only at e
        by_cases hc : cur = w
        · rw [if_pos hc] at e; cases e; exact setChain_quiet b loc s.chain
        · rw [if_neg hc] at e; exact unlinkStr_quiet b w n _ _ e

theorem removeStrhash_quiet {w : Word} (e : removeStrhash h w = some h') : Quiet h h' := by
  unfold removeStrhash at e
  cases hs : h.lstrs (decodeLongstr w) with
  | none => rw [hs] at e; cases e
  | some s =>
    rw [hs] at e
    dsimp only at e
    cases hx : extraOf h s with
    | none => rw [hx] at e; cases e
    | some x => rw [hx] at e; exact unlinkStr_quiet _ _ _ _ _ e

theorem freeField_quiet : ∀ (n : Nat) {h h' : Heap} {w : Word}, freeField n h w = some h' → Quiet h h'
  | 0, _, _, _, e => by simp [freeField] at e
  | n + 1, h, h', w, e => by
    rw [freeField] at e
    by_cases c1 : isDatarec w = true
    · rw [if_pos c1] at e; cases e; exact Quiet.refl h
    rw [if_neg c1] at e
    by_cases c2 : isLongstr w = true
    · rw [if_pos c2] at e
      cases hs : h.lstrs (decodeLongstr w) with
      | none => rw [hs] at e; cases e
      | some s =>
        rw [hs] at e
        dsimp only at e
        by_cases c3 : s.refc - 1 > 0
        · rw [if_pos c3] at e
          cases e
          intro o s' e' hz
          dsimp only at e'
          by_cases ho : o = decodeLongstr w
          · subst ho; rw [upd_self] at e'; cases e'; dsimp only at hz; omega
          · rw [upd_ne _ _ ho] at e'; exact ⟨s', e', hz⟩
        · rw [if_neg c3] at e
          cases hr : removeStrhash h w with
          | none => rw [hr] at e; cases e
          | some h1 =>
            rw [hr] at e
            dsimp only at e
            have q1 := removeStrhash_quiet hr
            generalize hy : (if s.extra ≠ 0#64 then freeField n h1 s.extra else some h1) = y at e
            cases y with
            | none => cases e
            | some h2 =>
              cases e
              have q2 : Quiet h1 h2 := by
                by_cases c4 : s.extra ≠ 0#64
                · rw [if_pos c4] at hy; exact freeField_quiet n hy
                · rw [if_neg c4] at hy; cases hy; exact Quiet.refl h1
              intro o s' e' hz
              dsimp only at e'
              by_cases ho : o = decodeLongstr w
              · subst ho; rw [upd_self] at e'; cases e'
              · rw [upd_ne _ _ ho] at e'; exact (q1.trans q2) o s' e' hz
    rw [if_neg c2] at e
    split_ifs at e <;> cases e <;> exact Quiet.of_eq rfl

theorem incRef_quiet {w : Word} (e : incRef h w = some h') : Quiet h h' := by
  unfold incRef at e
  by_cases c : isLongstr w = true
  · rw [if_pos c] at e
    cases hs : h.lstrs (decodeLongstr w) with
    | none => rw [hs] at e; cases e
    | some s =>
      rw [hs] at e; cases e
      intro o s' e' hz
      dsimp only at e'
      by_cases ho : o = decodeLongstr w
      · subst ho; rw [upd_self] at e'; cases e'; exact ⟨s, hs, by dsimp only at hz; omega⟩
      · rw [upd_ne _ _ ho] at e'; exact ⟨s', e', hz⟩
  · rw [if_neg c] at e; cases e; exact Quiet.refl h

theorem setLink_lstrs (c : Word) (loc : Option Word) (w : Word) : (h.setLink c loc w).lstrs = h.lstrs := by cases loc <;> rfl

theorem unlinkBack_lstrs (c p : Word) : ∀ (n : Nat) (loc : Option Word) (cur : Word), unlinkBack h c p n loc cur = some (some h') → h'.lstrs = h.lstrs
  | 0, _, _, e => by simp [unlinkBack] at e
  | n + 1, loc, cur, e => by
    rw [unlinkBack] at e
    by_cases h0 : cur = 0#64
    · rw [if_pos h0] at e; cases e
    · rw [if_neg h0] at e
      cases hx : h.cells cur with
      | none => rw [hx] at e; cases e
      | some x =>
        rw [hx] at e
        dsimp only at e
        by_cases hp : x.car = p
        · rw [if_pos hp] at e; cases e; exact setLink_lstrs c loc x.cdr
        · rw [if_neg hp] at e; exact unlinkBack_lstrs c p n _ _ e

theorem removeBacklink_lstrs {c p : Word} (e : removeBacklink h c p = some (some h')) : h'.lstrs = h.lstrs := by
  unfold removeBacklink at e
  cases hx : h.recs c with
  | none => rw [hx] at e; cases e
  | some x => rw [hx] at e; exact unlinkBack_lstrs _ _ _ _ _ e

theorem appendBack_lstrs (c p q : Word) : ∀ (n : Nat) (loc : Option Word) (cur : Word), appendBack h c p q n loc cur = some h' → h'.lstrs = h.lstrs
  | 0, _, _, e => by simp [appendBack] at e
  | n + 1, loc, cur, e => by
    rw [appendBack] at e
    by_cases h0 : cur = 0#64
    · rw [if_pos h0] at e
      cases e
      rw [setLink_lstrs]
    · rw [if_neg h0] at e
      cases hx : h.cells cur with
      | none => rw [hx] at e; cases e
      | some x => rw [hx] at e; exact appendBack_lstrs c p q n _ _ e

theorem addBacklink_lstrs {c p : Word} {q : Option Word} (e : addBacklink h c p q = some h') : h'.lstrs = h.lstrs := by
  unfold addBacklink at e
  cases hx : h.recs c with
  | none => rw [hx] at e; cases e
  | some x =>
    cases q with
    | none => rw [hx] at e; cases e
    | some q => rw [hx] at e; exact appendBack_lstrs _ _ _ _ _ _ e

theorem afterStore_lstrs (X : Ix ι) {x : ι} {r : Word} {i : Nat} {v : Word} {cell : Option Word} {s2 : Db ι} {c : Option Int}
    (e : afterStore X h x r i v cell = some (s2, c)) : s2.h.lstrs = h.lstrs := by
  unfold afterStore at e
  cases hx : h.recs r with
  | none => rw [hx] at e; cases e
  | some rc =>
    rw [hx] at e
    dsimp only at e
    split_ifs at e
    · cases e; rfl
    · cases hb : addBacklink h v r cell with
      | none => rw [hb] at e; cases e
      | some h1 => rw [hb] at e; cases e; exact addBacklink_lstrs hb
    · cases e; rfl
    all_goals first
      | (cases e; rfl)
      | (cases hb : addBacklink h v r cell with
         | none => rw [hb] at e; cases e
         | some h1 => rw [hb] at e; cases e; exact addBacklink_lstrs hb)

theorem restoreParents_h (X : Ix ι) {x : ι} {r head : Word} {s' : Db ι} {c : Int} (e : restoreParents X h x r head = some (s', c)) : s'.h = h := by
  unfold restoreParents at e
  by_cases h0 : head = 0#64
  · rw [if_pos h0] at e; cases e; rfl
  · rw [if_neg h0] at e
    generalize visitChain h (visitParents X (X.addField h) h 6 r) walkFuel head x = y at e
    cases y with
    | none => cases e
    | some y => cases e; rfl

theorem replaceField_quiet {r : Word} {i : Nat} {old v : Word} (e : replaceField h r i old v = some (some h')) : Quiet h h' := by
  unfold replaceField at e
  generalize hy : (if isRecVal old then removeBacklink h old r else some (some h)) = y at e
  match y, hy, e with
  | some (some h1), hy, e =>
    have q1 : Quiet h h1 := by
      by_cases c : isRecVal old = true
      · rw [if_pos c] at hy; exact Quiet.of_eq (removeBacklink_lstrs hy)
      · rw [if_neg c] at hy; cases hy; exact Quiet.refl h
    dsimp only at e
    cases h2 : incRef h1 v with
    | none => rw [h2] at e; cases e
    | some g2 =>
      rw [h2, Option.bind_some] at e
      have q2 := incRef_quiet h2
      generalize hz : (if isPtr old then freeField freeDepth g2 old else some g2) = z at e
      cases z with
      | none => cases e
      | some g3 =>
        have q3 : Quiet g2 g3 := by
          by_cases c : isPtr old = true
          · rw [if_pos c] at hz; exact freeField_quiet _ hz
          · rw [if_neg c] at hz; cases hz; exact Quiet.refl _
        cases e
        exact (q1.trans q2).trans (q3.trans (Quiet.of_eq rfl))

theorem setField_quiet (X : Ix ι) {s s' : Db ι} {r : Word} {i : Int} {v : Word} {cell : Option Word} {c : Int}
    (e : setField X s r i v cell = some (s', c)) : Quiet s.h s'.h := by
  unfold setField at e
  cases hr : s.h.recs r with
  | none => rw [hr] at e; cases e
  | some rc =>
    rw [hr] at e
    dsimp only at e
    by_cases c1 : i < 0 ∨ (rc.fields.length : Int) ≤ i
    · rw [if_pos c1] at e; cases e; exact Quiet.refl _
    rw [if_neg c1] at e
    by_cases c2 : rc.fields.getD i.toNat 0#64 = v
    · rw [if_pos c2] at e; cases e; exact Quiet.refl _
    rw [if_neg c2] at e
    cases hf : forgetField X s r i.toNat rc with
    | none => rw [hf] at e; cases e
    | some y =>
      obtain ⟨x1, code⟩ := y
      rw [hf] at e
      dsimp only at e
      by_cases c3 : code ≠ 0
      · rw [if_pos c3] at e; cases e; exact Quiet.refl _
      rw [if_neg c3] at e
      cases hp : replaceField s.h r i.toNat (rc.fields.getD i.toNat 0#64) v with
      | none => rw [hp] at e; cases e
      | some y =>
        cases y with
        | none => rw [hp] at e; cases e; exact Quiet.refl _
        | some h1 =>
          rw [hp] at e
          dsimp only at e
          have q1 := replaceField_quiet hp
          cases ha : afterStore X h1 x1 r i.toNat v cell with
          | none => rw [ha] at e; cases e
          | some z =>
            obtain ⟨s2, co⟩ := z
            have q2 : Quiet h1 s2.h := Quiet.of_eq (afterStore_lstrs X ha)
            rw [ha] at e
            cases co with
            | some k => cases e; exact q1.trans q2
            | none => rw [restoreParents_h X e]; exact q1.trans q2

theorem setNewField_quiet (X : Ix ι) {s s' : Db ι} {r : Word} {i : Int} {v : Word} {cell : Option Word} {c : Int}
    (e : setNewField X s r i v cell = some (s', c)) : Quiet s.h s'.h := by
  unfold setNewField at e
  cases hr : s.h.recs r with
  | none => rw [hr] at e; cases e
  | some rc =>
    rw [hr] at e
    dsimp only at e
    by_cases c1 : i < 0 ∨ (rc.fields.length : Int) ≤ i
    · rw [if_pos c1] at e; cases e; exact Quiet.refl _
    rw [if_neg c1] at e
    by_cases c2 : rc.fields.getD i.toNat 0#64 ≠ 0#64
    · rw [if_pos c2] at e; cases e; exact Quiet.refl _
    rw [if_neg c2] at e
    cases hp : incRef (s.h.setFld r i.toNat v) v with
    | none => rw [hp] at e; cases e
    | some h1 =>
      rw [hp] at e
      dsimp only at e
      have q1 : Quiet s.h h1 := Quiet.trans (h2 := s.h.setFld r i.toNat v) (Quiet.of_eq rfl) (incRef_quiet hp)
      cases ha : afterStore X h1 s.ix r i.toNat v cell with
      | none => rw [ha] at e; cases e
      | some z =>
        obtain ⟨s2, co⟩ := z
        have q2 : Quiet h1 s2.h := Quiet.of_eq (afterStore_lstrs X ha)
        rw [ha] at e
        cases co with
        | some k => cases e; exact q1.trans q2
        | none =>
          dsimp only at e
          cases h2 : s2.h.recs r with
          | none => rw [h2] at e; cases e
          | some rc2 => rw [h2] at e; rw [restoreParents_h X e]; exact q1.trans q2

theorem freeFields_quiet (r : Word) : ∀ (t : List Word) {h h' : Heap}, freeFields r t h = some (some h') → Quiet h h'
  | [], h, h', e => by simp only [freeFields, Option.some.injEq] at e; subst e; exact Quiet.refl h
  | w :: t, h, h', e => by
    rw [freeFields] at e
    generalize hy : (if isRecVal w then removeBacklink h w r else some (some h)) = y at e
    match y, hy, e with
    | some (some h1), hy, e =>
      have q1 : Quiet h h1 := by
        by_cases c : isRecVal w = true
        · rw [if_pos c] at hy; exact Quiet.of_eq (removeBacklink_lstrs hy)
        · rw [if_neg c] at hy; cases hy; exact Quiet.refl h
      dsimp only at e
      generalize hz : (if isPtr w then freeField freeDepth h1 w else some h1) = z at e
      cases z with
      | none => cases e
      | some h2 =>
        have q2 : Quiet h1 h2 := by
          by_cases c : isPtr w = true
          · rw [if_pos c] at hz; exact freeField_quiet _ hz
          · rw [if_neg c] at hz; cases hz; exact Quiet.refl _
        exact (q1.trans q2).trans (freeFields_quiet r t e)

theorem deleteRecord_quiet (X : Ix ι) {s s' : Db ι} {r : Word} {c : Int} (e : deleteRecord X s r = some (s', c)) : Quiet s.h s'.h := by
  unfold deleteRecord at e
  cases hr : s.h.recs r with
  | none => rw [hr] at e; cases e
  | some rc =>
    rw [hr] at e
    dsimp only at e
    by_cases c1 : rc.back ≠ 0#64
    · rw [if_pos c1] at e; cases e; exact Quiet.refl _
    rw [if_neg c1] at e
    generalize (if rc.special = true then (s.ix, 0) else X.delRec s.h s.ix r) = y at e
    by_cases c2 : y.2 < -1
    · rw [if_pos c2] at e; cases e; exact Quiet.refl _
    rw [if_neg c2] at e
    cases hf : freeFields r rc.fields s.h with
    | none => rw [hf] at e; cases e
    | some z =>
      cases z with
      | none => rw [hf] at e; cases e; exact Quiet.refl _
      | some h1 =>
        rw [hf] at e; cases e
        exact (freeFields_quiet r _ hf).trans (Quiet.of_eq rfl)

theorem freeEncoded_quiet {w : Word} (e : freeEncoded h w = some h') : Quiet h h' := by
  unfold freeEncoded at e
  by_cases c : isPtr w = true
  · rw [if_pos c] at e
    cases h1 : incRef h w with
    | none => rw [h1] at e; cases e
    | some g => rw [h1, Option.bind_some] at e; exact (incRef_quiet h1).trans (freeField_quiet _ e)
  · rw [if_neg c] at e; cases e; exact Quiet.refl h

end WG.Recs
