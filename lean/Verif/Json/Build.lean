import Verif.Json.Loose
/-! # Records filled with values that have been created before -/
namespace WG.Json
open WG.Recs

variable {C : Prop} {ι : Type} {h h' : Heap} {X : Ix ι} {s0 s s' : Db ι} {k N : Nat} {L : List Word} {A : Alloc ι}

theorem LInv.nil (hL : LInv C X s0 k s L) : LInv C X s0 k s [] := by
  induction L with
  | nil => exact hL
  | cons w L ih => exact ih hL.tail

theorem refersAt_iff {p x : Word} {i : Nat} : RefersAt (view h) p i x ↔ ∃ rc, h.recs p = some rc ∧ rc.fields[i]? = some x := by
  constructor
  · rintro ⟨fs, e1, e2⟩
    simp only [view, Option.map_eq_some_iff] at e1
    obtain ⟨rc, e3, rfl⟩ := e1
    exact ⟨rc, e3, e2⟩
  · rintro ⟨rc, e1, e2⟩
    exact ⟨rc.fields, by simp [view, e1], e2⟩

/-! ## A new record -/

theorem replicate_no_rec {n : Nat} {x : Word} (hx : x ∈ List.replicate n 0#64) : isRecVal x = false := by
  rw [(List.mem_replicate.1 hx).2]; decide

theorem LInv.create (hL : LInv C X s0 k s L) (hg : X.Good) (hA : A.Ok) (n : Nat) (bits : Word) {s' : Db ι} {o : Word}
    (he : createRecord X s n bits (A.rcd s n) = (s', o)) :
    (o = 0#64 ∧ A.rcd s n = none ∧ s'.h = s.h ∧ LInv C X s0 (k + 1) s' L) ∨
    (o ≠ 0#64 ∧ isRecVal o = true ∧ s.h.recs o = none ∧ LInv C X s0 (k + 1) s' (o :: L) ∧ Ext s.h s'.h ∧
      s'.h.recs o = some ⟨bits, 0#64, List.replicate n 0#64⟩) := by
  have hpre : Pre C X s (.create n bits (A.rcd s n)) := hA.rcd s n
  have hrun : run X s (.create n bits (A.rcd s n)) = some (s', .word o) := by simp [run, he]
  have hst := hL.steps.step (op := .create n bits (A.rcd s n)) trivial hpre hrun
  unfold createRecord createRaw at he
  rw [if_neg (by omega)] at he
  cases ha : A.rcd s n with
  | none =>
    rw [ha] at he
    dsimp only at he
    rw [if_pos rfl] at he
    cases he
    exact Or.inl ⟨rfl, rfl, rfl, hst, hL.inv, hL.ext, hL.sok, hL.fresh, hL.unref, hL.distinct, hL.closed, hL.single⟩
  | some q =>
    obtain ⟨a1, a2⟩ := hA.rcd s n q ha
    have hq : q ≠ 0#64 := by rintro rfl; exact absurd a2 (by decide)
    rw [ha] at he
    dsimp only at he
    rw [if_neg hq] at he
    have hy : ∀ y : ι × Int, y = (if bits &&& 1#64 ≠ 0#64 then (s.ix, 0) else X.addRec { s.h with recs := upd s.h.recs q (some ⟨bits, 0#64, List.replicate (n : Int).toNat 0#64⟩) } s.ix q) → ¬ y.2 < -1 := by
      rintro y rfl
      split_ifs
      · simp
      · have := hg.addRec { s.h with recs := upd s.h.recs q (some ⟨bits, 0#64, List.replicate (n : Int).toNat 0#64⟩) } s.ix q
        omega
    rw [if_neg (hy _ rfl)] at he
    simp only [Prod.mk.injEq, Int.toNat_natCast] at he
    obtain ⟨e1, rfl⟩ := he
    have hh : s'.h = { s.h with recs := upd s.h.recs q (some ⟨bits, 0#64, List.replicate n 0#64⟩) } := by rw [← e1]
    clear e1 hy
    have hIn : Inv C s'.h := by rw [hh]; exact hL.inv.create a1 a2
    have hsub : Sub s'.h s.h := by
      rw [hh]; exact ⟨fun _ _ e => e, fun _ _ e => e, fun _ _ e => e, fun _ s e => ⟨s, e, rfl, rfl, rfl⟩⟩
    have hsame : ∀ p, p ≠ q → s'.h.recs p = s.h.recs p := by intro p hp; rw [hh]; exact upd_ne _ _ hp
    have hnew : s'.h.recs q = some ⟨bits, 0#64, List.replicate n 0#64⟩ := by rw [hh]; exact upd_self _ _ _
    have hext : Ext s.h s'.h := by
      refine ⟨fun r rc e => ⟨rc.back, ?_⟩, hsub⟩
      rw [hsame r (by rintro rfl; rw [a1] at e; cases e)]; exact e
    have hrefers : ∀ p i x, isRecVal x = true → RefersAt (view s'.h) p i x → RefersAt (view s.h) p i x := by
      intro p i x hx hr
      obtain ⟨rc, e1, e2⟩ := refersAt_iff.1 hr
      by_cases hp : p = q
      · subst hp
        rw [hnew] at e1; cases e1
        have := replicate_no_rec (n := n) (x := x) (List.mem_of_getElem? e2)
        simp [this] at hx
      · rw [hsame p hp] at e1
        exact refersAt_iff.2 ⟨rc, e1, e2⟩
    have hfresh0 : s0.h.recs q = none := by
      cases hc : s0.h.recs q with
      | none => rfl
      | some rc =>
        obtain ⟨b, e⟩ := hL.ext.recs q rc hc
        rw [a1] at e; cases e
    have hkq : ¬ Owned q := by
      intro ho
      rcases kind_cases q with k | k | k | k | k | k <;> simp_all [Owned]
    refine Or.inr ⟨hq, a2, a1, ⟨hst, hIn, hL.ext.trans hext, ?_, ?_, ?_, ?_, ?_, ?_⟩, hext, hnew⟩
    · intro u hu
      rcases List.mem_cons.1 hu with rfl | hu
      · refine ⟨?_, fun _ => ⟨_, hnew⟩, fun ho => absurd ho hkq⟩
        rcases kind_cases u with k | k | k | k | k | k <;> simp_all [LiveS]
      · obtain ⟨a, b, c⟩ := hL.sok u hu
        refine ⟨Sub.live hsub a, fun e => ?_, fun ho p hp => ?_⟩
        · obtain ⟨rc, e⟩ := b e
          obtain ⟨b, e⟩ := hext.recs u rc e
          exact ⟨_, e⟩
        · cases p with
          | fld r i =>
            by_cases hr : r = q
            · subst hr
              simp only [Held, fldF, hnew, Option.bind_some] at hp
              have := (List.mem_replicate.1 (List.mem_of_getElem? hp)).2
              subst this
              exact absurd (Or.inr ho) (not_single_imm kind_zero)
            · exact c ho (.fld r i) (by simpa only [Held, fldF, hsame r hr] using hp)
          | tmp i => simp [Held, fldF] at hp
          | ext q' =>
            obtain ⟨x, e1, e2⟩ := hp
            exact c ho (.ext q') ⟨x, by rw [hh] at e1; exact e1, e2⟩
    · intro u hu hr
      rcases List.mem_cons.1 hu with rfl | hu
      · exact hfresh0
      · exact hL.fresh u hu hr
    · intro u hu hr p i hp
      have h2 := hrefers p i u hr hp
      rcases List.mem_cons.1 hu with rfl | hu
      · obtain ⟨rc, e1, e2⟩ := refersAt_iff.1 h2
        obtain ⟨rc', e3⟩ := hL.inv.refs p rc u e1 (List.mem_of_getElem? e2) hr
        rw [a1] at e3; cases e3
      · exact hL.unref u hu hr p i h2
    · refine List.pairwise_cons.2 ⟨?_, hL.distinct⟩
      rintro b hb rfl _
      obtain ⟨rc, e⟩ := (hL.sok _ hb).rcd a2
      rw [a1] at e; cases e
    · intro p rc x e1 e2 e3 e4
      by_cases hp : p = q
      · subst hp
        rw [hnew] at e1; cases e1
        have := replicate_no_rec (n := n) (x := x) e3
        simp [this] at e4
      · rw [hsame p hp] at e1
        exact hL.closed p rc x e1 e2 e3 e4
    · intro x hx hn p i p' i' h1 h2
      exact hL.single x hx hn p i p' i' (hrefers _ _ _ hx h1) (hrefers _ _ _ hx h2)

/-! ## Filling it -/

/-- The cells for backlinks can be allocated during the first `N` steps. -/
def Cells (A : Alloc ι) (C : Prop) (X : Ix ι) (s0 : Db ι) (N : Nat) : Prop := ∀ k s, Steps C X s0 k s → k < N → A.cell s ≠ none

theorem Stored.ext {hb : Heap} {r v : Word} {i : Nat} (e : Ext hb h) (hr : hb.recs r = none) (hst : Stored h h' r i v) (hs : Sub h' h) : Ext hb h' := by
  refine ⟨fun p rc ep => ?_, hs.trans e.sub⟩
  obtain ⟨b, e1⟩ := e.recs p rc ep
  obtain ⟨b', e2⟩ := (hst p).2 _ e1
  rw [if_neg (by rintro rfl; rw [hr] at ep; cases ep)] at e2
  exact ⟨b', e2⟩

theorem LInv.set {r v : Word} (hL : LInv C X s0 k s (r :: v :: L)) (hg : X.Good) (hA : A.Ok) (hc : A.cell s ≠ none) {rc : Rec} {i : Nat} (hr : s.h.recs r = some rc)
    (hi : rc.fields[i]? = some 0#64) : ∃ s', setField X s r i v (A.cell s) = some (s', 0) ∧ LInv C X s0 (k + 1) s' (r :: L) ∧
      (∃ b, s'.h.recs r = some { rc with back := b, fields := rc.fields.set i v }) ∧ (∀ hb, Ext hb s.h → hb.recs r = none → Ext hb s'.h) := by
  have hrv := hL.inv.recs r rc hr
  have hr0 := hL.fresh r (by simp) hrv
  obtain ⟨s', g1, g2, g3, g4, g5, g6⟩ := set_empty (cell := A.cell s) hg hL.inv hr hi (hL.sok v (by simp)) (by
    intro _
    cases ha : A.cell s with
    | none => exact absurd ha hc
    | some a => exact ⟨a, rfl, hA.cell s a ha⟩)
  have hd1 := List.pairwise_cons.1 hL.distinct
  have hd2 := List.pairwise_cons.1 hd1.2
  have hnv : ∀ u ∈ r :: L, Single u → u ≠ v := by
    rintro u hu hs rfl
    rcases List.mem_cons.1 hu with rfl | hu
    · exact hd1.1 u (by simp) rfl hs
    · exact hd2.1 u hu rfl hs
  have hfld : ∀ p rp, s'.h.recs p = some rp → ∃ ro, s.h.recs p = some ro ∧ rp.fields = if p = r then ro.fields.set i v else ro.fields := by
    intro p rp e
    cases ho : s.h.recs p with
    | none => rw [(g3 p).1 ho] at e; cases e
    | some ro =>
      obtain ⟨b, e2⟩ := (g3 p).2 ro ho
      rw [e2] at e; cases e
      exact ⟨ro, rfl, rfl⟩
  have hold : ∀ p rp j x, s'.h.recs p = some rp → rp.fields[j]? = some x → (p = r ∧ j = i ∧ x = v) ∨ ∃ ro, s.h.recs p = some ro ∧ ro.fields[j]? = some x := by
    intro p rp j x e1 e2
    obtain ⟨ro, e3, e4⟩ := hfld p rp e1
    by_cases hp : p = r
    · rw [if_pos hp] at e4
      rw [e4, List.getElem?_set] at e2
      by_cases hj : i = j
      · rw [if_pos hj] at e2
        split_ifs at e2
        cases e2
        exact Or.inl ⟨hp, hj.symm, rfl⟩
      · rw [if_neg hj] at e2
        exact Or.inr ⟨ro, e3, e2⟩
    · rw [if_neg hp] at e4
      rw [e4] at e2
      exact Or.inr ⟨ro, e3, e2⟩
  have href : ∀ p j x, RefersAt (view s'.h) p j x → (p = r ∧ j = i ∧ x = v) ∨ RefersAt (view s.h) p j x := by
    intro p j x hp
    obtain ⟨rp, e1, e2⟩ := refersAt_iff.1 hp
    rcases hold p rp j x e1 e2 with h | h
    · exact Or.inl h
    · exact Or.inr (refersAt_iff.2 h)
  have hsubset : ∀ u ∈ r :: L, u ∈ r :: v :: L := by
    intro u hu
    rcases List.mem_cons.1 hu with rfl | hu
    · simp
    · simp [hu]
  refine ⟨s', g2, ⟨hL.steps.step (op := .set r i v (A.cell s)) ⟨Int.natCast_nonneg i, rc, hr, by simpa using hi⟩ g1 (by simp [run, g2]; rfl), g6, Stored.ext hL.ext hr0 g3 g5, ?_, ?_, ?_, ?_, ?_, ?_⟩, ?_, fun hb e1 e2 => Stored.ext e1 e2 g3 g5⟩
  · intro u hu
    obtain ⟨a, b, c⟩ := hL.sok u (hsubset u hu)
    refine ⟨Sub.live g5 a, fun e => ?_, fun ho q hq => ?_⟩
    · obtain ⟨ru, e⟩ := b e
      obtain ⟨_, e2⟩ := (g3 u).2 ru e
      exact ⟨_, e2⟩
    · cases q with
      | fld p j =>
        simp only [Held, fldF] at hq
        cases hp : s'.h.recs p with
        | none => rw [hp] at hq; cases hq
        | some rp =>
          rw [hp] at hq
          simp only [Option.bind_some] at hq
          rcases hold p rp j u hp hq with ⟨_, _, h⟩ | ⟨ro, e1, e2⟩
          · exact hnv u hu (Or.inr ho) h
          · exact c ho (.fld p j) (by simp only [Held, fldF, e1, Option.bind_some]; exact e2)
      | tmp j => simp [Held, fldF] at hq
      | ext q =>
        obtain ⟨x, e1, e2⟩ := hq
        obtain ⟨x', e3, _, e4, _⟩ := g4.lstrs q x e1
        exact c ho (.ext q) ⟨x', e3, by rw [← e4]; exact e2⟩
  · intro u hu; exact hL.fresh u (hsubset u hu)
  · intro u hu hur p j hp
    rcases href p j u hp with ⟨_, _, h⟩ | h
    · exact hnv u hu (Or.inl hur) h
    · exact hL.unref u (hsubset u hu) hur p j h
  · exact hL.distinct.sublist (by simp)
  · intro p rp x e1 e2 e3 e4
    obtain ⟨j, hj⟩ := List.mem_iff_getElem?.1 e3
    rcases hold p rp j x e1 hj with ⟨_, _, h⟩ | ⟨ro, e5, e6⟩
    · subst h; exact hL.fresh x (by simp) e4
    · exact hL.closed p ro x e5 e2 (List.mem_of_getElem? e6) e4
  · intro x hx hn p j q l h1 h2
    rcases href p j x h1 with ⟨a1, a2, a3⟩ | a <;> rcases href q l x h2 with ⟨b1, b2, b3⟩ | b
    · exact ⟨a1.trans b1.symm, a2.trans b2.symm⟩
    · subst a3; exact absurd b (hL.unref x (by simp) hx q l)
    · subst b3; exact absurd a (hL.unref x (by simp) hx p j)
    · exact hL.single x hx hn p j q l a b
  · obtain ⟨b, e⟩ := (g3 r).2 rc hr
    rw [if_pos rfl] at e
    exact ⟨b, e⟩

theorem LInv.setAll (hg : X.Good) (hA : A.Ok) (hN : Cells A C X s0 N) {r : Word} : ∀ (ws pre : List Word) (s : Db ι) (k : Nat) (rc : Rec),
    LInv C X s0 k s (r :: (ws ++ L)) → s.h.recs r = some rc → rc.fields = pre ++ List.replicate ws.length 0#64 → k + ws.length ≤ N →
    ∃ s', Json.setAll A X r ws pre.length s = some (s', true) ∧ LInv C X s0 (k + ws.length) s' (r :: L) ∧
      (∃ b, s'.h.recs r = some { rc with back := b, fields := pre ++ ws }) ∧ (∀ hb, Ext hb s.h → hb.recs r = none → Ext hb s'.h)
  | [], pre, s, k, rc, hL, hr, hf, hk => by
    refine ⟨s, rfl, hL, ⟨rc.back, ?_⟩, fun hb e _ => e⟩
    rw [hr]
    simp only [List.length_nil, List.replicate_zero] at hf
    rw [← hf]
  | w :: ws, pre, s, k, rc, hL, hr, hf, hk => by
    simp only [List.length_cons, List.cons_append] at hL hf hk ⊢
    have hi : rc.fields[pre.length]? = some 0#64 := by rw [hf, List.replicate_succ]; simp
    obtain ⟨s1, g1, g2, ⟨b, g3⟩, g4⟩ := hL.set hg hA (hN k s hL.steps (by omega)) hr hi
    have hf1 : rc.fields.set pre.length w = (pre ++ [w]) ++ List.replicate ws.length 0#64 := by
      rw [hf, List.replicate_succ]; simp
    obtain ⟨s2, h1, h2, ⟨b2, h3⟩, h4⟩ := LInv.setAll hg hA hN ws (pre ++ [w]) s1 (k + 1) _ g2 g3 hf1 (by omega)
    refine ⟨s2, ?_, ?_, ⟨b2, ?_⟩, fun hb e1 e2 => h4 hb (g4 hb e1 e2) e2⟩
    · rw [Json.setAll, g1]
      simp only [ne_eq, not_true_eq_false, if_false]
      simpa using h1
    · rw [show k + (ws.length + 1) = k + 1 + ws.length by omega]; exact h2
    · rw [h3]; simp

end WG.Json
