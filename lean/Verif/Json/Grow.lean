import Verif.Json.Spec
import Verif.IndexMaint.Reader
import Verif.Schema.Props
/-! # Calls that add to the database -/
namespace WG.Json
open WG.Recs

variable {C : Prop} {ι : Type} {h h' : Heap}

/-- Nothing is lost: records keep marks and fields, other objects their contents. -/
structure Ext (h h' : Heap) : Prop where
  recs : ∀ r rc, h.recs r = some rc → ∃ b, h'.recs r = some { rc with back := b }
  sub : Sub h' h

theorem Ext.refl (h : Heap) : Ext h h := ⟨fun _ rc e => ⟨rc.back, e⟩, Sub.refl h⟩
theorem Ext.trans {h1 h2 h3 : Heap} (a : Ext h1 h2) (b : Ext h2 h3) : Ext h1 h3 :=
  ⟨fun r rc e => by
    obtain ⟨b1, e1⟩ := a.recs r rc e
    obtain ⟨b2, e2⟩ := b.recs r _ e1
    exact ⟨b2, e2⟩, b.sub.trans a.sub⟩

theorem Sub.live (e : Sub h' h) {w : Word} (hl : LiveS h w) : LiveS h' w := by
  unfold LiveS at *
  rcases kind_cases w with k | k | k | k | k | k <;> rw [k.1] at hl ⊢ <;> simp only at hl ⊢
  · obtain ⟨s, hs⟩ := hl
    obtain ⟨s2, e1, _⟩ := e.lstrs _ _ hs
    exact ⟨s2, e1⟩
  · obtain ⟨s, hs⟩ := hl; exact ⟨s, e.sstrs _ _ hs⟩
  · obtain ⟨s, hs⟩ := hl; exact ⟨s, e.dbls _ _ hs⟩
  · obtain ⟨s, hs⟩ := hl; exact ⟨s, e.ints _ _ hs⟩

theorem Sub.same (e : Sub h' h) (hI : Inv C h) {w : Word} (hl : LiveS h w) : SameValue h h' w := (e.value hI.str hl).symm

theorem Ext.untouched (e : Ext h h') (hI : Inv C h) : Untouched h h' :=
  ⟨fun r rc hr => by
    obtain ⟨b, e1⟩ := e.recs r rc hr
    exact ⟨_, e1, rfl, rfl⟩, fun _ hl => ⟨Sub.live e.sub hl, Sub.same e.sub hI hl⟩⟩

theorem view_ext (e : Ext h h') {r : Word} {fs : List Word} (hv : view h r = some fs) : view h' r = some fs := by
  simp only [view, Option.map_eq_some_iff] at hv ⊢
  obtain ⟨rc, h1, rfl⟩ := hv
  obtain ⟨b, e1⟩ := e.recs r rc h1
  exact ⟨_, e1, rfl⟩

/-! ## What represents a value goes on doing so -/

theorem IsStr.mono (e : Ext h h') (hI : Inv C h) {w : Word} {s : List Byte} (hl : LiveS h w) (hd : IsStr h w s) : IsStr h' w s := by
  have hs := Sub.same e.sub hI hl
  exact ⟨hs.rsame.typ.trans hd.1, hs.1.trans hd.2.1, (hs.2.2.2.1 5#64).trans hd.2.2⟩

theorem field_live (hI : Inv C h) {r : Word} {rc : Rec} (hr : h.recs r = some rc) {w : Word} (hw : w ∈ rc.fields) : LiveS h w := by
  obtain ⟨i, hi⟩ := List.mem_iff_getElem?.1 hw
  exact view_live hI (r := r) (fs := rc.fields) (by simp [view, hr]) hi

mutual
theorem Denotes.mono (e : Ext h h') (hI : Inv C h) {w : Word} (hl : LiveS h w) : ∀ {j : J}, Denotes h w j → Denotes h' w j
  | .null, hd => hd.elim
  | .bool _, hd => hd.elim
  | .int _, hd => by
    have hs := (Sub.same e.sub hI hl).rsame
    exact ⟨hs.typ.trans hd.1, hs.int.trans hd.2⟩
  | .dbl _, hd => by
    have hs := (Sub.same e.sub hI hl).rsame
    exact ⟨hs.typ.trans hd.1, hs.dbl.trans hd.2⟩
  | .str _, hd => IsStr.mono e hI hl hd
  | .arr l, hd => by
    simp only [Denotes] at hd ⊢
    obtain ⟨h0, rc, h1, h2, h3⟩ := hd
    obtain ⟨b, e1⟩ := e.recs _ _ h1
    exact ⟨h0, _, e1, h2, DenotesArr.mono e hI (fun w hw => field_live hI h1 hw) h3⟩
  | .obj m, hd => by
    simp only [Denotes] at hd ⊢
    obtain ⟨h0, rc, h1, h2, h3⟩ := hd
    obtain ⟨b, e1⟩ := e.recs _ _ h1
    exact ⟨h0, _, e1, h2, DenotesObj.mono e hI h3⟩
theorem DenotesArr.mono (e : Ext h h') (hI : Inv C h) {ws : List Word} (hl : ∀ w ∈ ws, LiveS h w) : ∀ {l : JArr}, DenotesArr h ws l → DenotesArr h' ws l
  | .nil, hd => hd
  | .cons v l, hd => by
    simp only [DenotesArr] at hd ⊢
    obtain ⟨w, ws', rfl, h1, h2⟩ := hd
    exact ⟨w, ws', rfl, Denotes.mono e hI (hl _ (by simp)) h1, DenotesArr.mono e hI (fun x hx => hl x (List.mem_cons_of_mem _ hx)) h2⟩
theorem DenotesObj.mono (e : Ext h h') (hI : Inv C h) {ws : List Word} : ∀ {m : JObj}, DenotesObj h ws m → DenotesObj h' ws m
  | .nil, hd => hd
  | .cons k v m, hd => by
    simp only [DenotesObj] at hd ⊢
    obtain ⟨r, ws', rc, kw, vw, rfl, h0, h1, h2, h3, h4, h5, h6⟩ := hd
    obtain ⟨b, e1⟩ := e.recs _ _ h1
    exact ⟨r, ws', _, kw, vw, rfl, h0, e1, h2, h3, h4.mono e hI (field_live hI h1 (by rw [h3]; simp)),
      Denotes.mono e hI (field_live hI h1 (by rw [h3]; simp)) h5, DenotesObj.mono e hI h6⟩
end

/-! ## Storing into an empty field -/

theorem appendBack_str (c p q : Word) : ∀ (n : Nat) (loc : Option Word) (cur : Word), appendBack h c p q n loc cur = some h' → SameStr h h'
  | 0, _, _, e => by simp [appendBack] at e
  | n + 1, loc, cur, e => by
    rw [appendBack] at e
    by_cases h0 : cur = 0#64
    · rw [if_pos h0] at e
      cases e
      cases loc <;> exact ⟨rfl, rfl, rfl, rfl, rfl, rfl⟩
    · rw [if_neg h0] at e
      cases hx : h.cells cur with
      | none => rw [hx] at e; cases e
      | some x => rw [hx] at e; exact appendBack_str c p q n _ _ e

theorem addBacklink_str {c p : Word} {q : Option Word} (e : addBacklink h c p q = some h') : SameStr h h' := by
  unfold addBacklink at e
  cases hx : h.recs c with
  | none => rw [hx] at e; cases e
  | some x =>
    cases q with
    | none => rw [hx] at e; cases e
    | some q => rw [hx] at e; exact appendBack_str _ _ _ _ _ _ e

theorem SameStr.symm (e : SameStr h h') : SameStr h' h :=
  ⟨e.1.symm, e.2.1.symm, e.2.2.1.symm, e.2.2.2.1.symm, e.2.2.2.2.1.symm, e.2.2.2.2.2.symm⟩

theorem afterStore_sub (X : Ix ι) {x : ι} {r : Word} {i : Nat} {v : Word} {cell : Option Word} {s2 : Db ι} {c : Option Int}
    (e : afterStore X h x r i v cell = some (s2, c)) : Sub s2.h h := by
  unfold afterStore at e
  cases hx : h.recs r with
  | none => rw [hx] at e; cases e
  | some rc =>
    rw [hx] at e
    dsimp only at e
    generalize (if touches X x rc i = true then X.addField h x r i else (x, 0)) = y at e
    by_cases c1 : y.2 < -1
    · rw [if_pos c1] at e; cases e; exact Sub.refl _
    rw [if_neg c1] at e
    by_cases c2 : isRecVal v = true
    · rw [if_pos c2] at e
      cases hb : addBacklink h v r cell with
      | none => rw [hb] at e; cases e
      | some h1 => rw [hb] at e; cases e; exact (SameStr.symm (addBacklink_str hb)).sub
    · rw [if_neg c2] at e; cases e; exact Sub.refl _

theorem replaceField_sub {r : Word} {i : Nat} {v : Word} (e : replaceField h r i 0#64 v = some (some h')) : Sub h' h := by
  unfold replaceField at e
  rw [if_neg (by decide)] at e
  dsimp only at e
  cases h2 : incRef h v with
  | none => rw [h2] at e; cases e
  | some g2 =>
    rw [h2, Option.bind_some, if_neg (by decide)] at e
    simp only [Option.map_some, Option.some.injEq] at e
    subst e
    have : Sub g2 h := by
      unfold incRef at h2
      by_cases c : isLongstr v = true
      · rw [if_pos c] at h2
        cases hs : h.lstrs (decodeLongstr v) with
        | none => rw [hs] at h2; cases h2
        | some s =>
          rw [hs] at h2
          cases h2
          refine ⟨fun _ _ e => e, fun _ _ e => e, fun _ _ e => e, fun o s' e => ?_⟩
          by_cases ho : o = decodeLongstr v
          · subst ho
            rw [hs] at e; cases e
            exact ⟨_, upd_self _ _ _, rfl, rfl, rfl⟩
          · exact ⟨s', by simp only [upd_ne _ _ ho]; exact e, rfl, rfl, rfl⟩
      · rw [if_neg c] at h2; cases h2; exact Sub.refl _
    exact ⟨this.sstrs, this.dbls, this.ints, this.lstrs⟩

theorem setField_sub (X : Ix ι) {s s' : Db ι} {r : Word} {i : Nat} {v : Word} {cell : Option Word} {c : Int} {rc : Rec} (hr : s.h.recs r = some rc)
    (hi : rc.fields[i]? = some 0#64) (e : setField X s r i v cell = some (s', c)) : Sub s'.h s.h := by
  unfold setField at e
  rw [hr] at e
  dsimp only at e
  have hg : rc.fields.getD (i : Int).toNat 0#64 = 0#64 := by simp [hi]
  by_cases c1 : (i : Int) < 0 ∨ (rc.fields.length : Int) ≤ i
  · rw [if_pos c1] at e; cases e; exact Sub.refl _
  rw [if_neg c1, hg] at e
  by_cases c2 : 0#64 = v
  · rw [if_pos c2] at e; cases e; exact Sub.refl _
  rw [if_neg c2] at e
  cases hf : forgetField X s r (i : Int).toNat rc with
  | none => rw [hf] at e; cases e
  | some y =>
    obtain ⟨x1, code⟩ := y
    rw [hf] at e
    dsimp only at e
    by_cases c3 : code ≠ 0
    · rw [if_pos c3] at e; cases e; exact Sub.refl _
    rw [if_neg c3] at e
    cases hp : replaceField s.h r (i : Int).toNat 0#64 v with
    | none => rw [hp] at e; cases e
    | some y =>
      cases y with
      | none => rw [hp] at e; cases e; exact Sub.refl _
      | some h1 =>
        rw [hp] at e
        dsimp only at e
        have q1 := replaceField_sub hp
        cases ha : afterStore X h1 x1 r (i : Int).toNat v cell with
        | none => rw [ha] at e; cases e
        | some z =>
          obtain ⟨s2, co⟩ := z
          have q2 := afterStore_sub X ha
          rw [ha] at e
          cases co with
          | some k => cases e; exact q2.trans q1
          | none => rw [restoreParents_h X e]; exact q2.trans q1

/-- Storing a loose value into an empty field succeeds and frees nothing. -/
theorem set_empty {X : Ix ι} (hg : X.Good) {s : Db ι} (hI : Inv C s.h) {r : Word} {rc : Rec} {i : Nat} {v : Word} {cell : Option Word}
    (hr : s.h.recs r = some rc) (hi : rc.fields[i]? = some 0#64) (hv : SOK s.h v)
    (hc : isRecVal v = true → ∃ a, cell = some a ∧ s.h.cells a = none ∧ a ≠ 0#64) :
    ∃ s', Pre C X s (.set r i v cell) ∧ setField X s r i v cell = some (s', 0) ∧ Stored s.h s'.h r i v ∧ Sub s.h s'.h ∧ Sub s'.h s.h ∧ Inv C s'.h := by
  have hlt : i < rc.fields.length := (List.getElem?_eq_some_iff.1 hi).1
  have hp : SetPre X s r i v cell := by
    refine ⟨⟨rc, hr⟩, hv, hc, fun _ s' e => setField_index (fun h x => hg.addField h x r _) e, ?_⟩
    intro rc' h1 h2
    rw [hr] at h1; cases h1
    rw [Int.toNat_natCast, hi] at h2
    cases h2
    exact absurd (hI.recs _ _ hr) (by decide)
  obtain ⟨s', code, e1, e2, e3⟩ := setField_ok X hI hp
  have hcode : code = 0 := by
    rcases setField_good hg hI hp e1 with h | h
    · exact h
    · obtain ⟨rc', g1, g2⟩ := e3.1 h
      rw [hr] at g1; cases g1
      omega
  subst hcode
  have hsub := setField_sub X hr hi e1
  refine ⟨s', hp, e1, ?_, ?_, hsub, ?_⟩
  · cases e2 with
    | refused _ h => cases h
    | same h1 h2 h3 h4 =>
      subst h1
      simp only [getField, hr, Option.map_some, if_neg (show ¬ ((i : Int) < 0 ∨ (rc.fields.length : Int) ≤ i) by omega), Option.some.injEq,
        Int.toNat_natCast, List.getD_eq_getElem?_getD, hi, Option.getD_some] at h4
      subst h4
      intro p
      refine ⟨id, fun rp hrp => ⟨rp.back, ?_⟩⟩
      split_ifs with hpr
      · subst hpr
        rw [hr] at hrp; cases hrp
        obtain ⟨_, hg2⟩ := List.getElem?_eq_some_iff.1 hi
        have : rc.fields.set i 0#64 = rc.fields := by
          have hg3 := List.set_getElem_self hlt
          rw [hg2] at hg3; exact hg3
        rw [this]; exact hr
      · exact hrp
    | index _ h => omega
    | stored _ h _ _ _ _ => simpa using h
  · cases e2 with
    | refused _ h => cases h
    | same h1 => subst h1; exact Sub.refl _
    | index _ h => omega
    | stored _ _ h _ _ _ => exact h
  · cases e2 with
    | refused _ h => cases h
    | same h1 => subst h1; exact hI
    | index _ h => omega
    | stored _ _ _ _ h _ => exact h

end WG.Json
