import Verif.TTree.Rotate
/-!
# The four rotations
-/
namespace WG.TTree
variable {κ : Type}
open T

theorem reparent_h (s : St κ) (c p : Nat) : (s.reparent c p).h = fun j => if j = c ∧ c ≠ 0 then { s.h c with parent := p } else s.h j := by
  unfold St.reparent
  funext j
  by_cases h : c = 0
  · simp [h]
  · simp [h, St.mod]

@[simp] theorem reparent_root (s : St κ) (c p : Nat) : (s.reparent c p).root = s.root := by unfold St.reparent; split <;> rfl
@[simp] theorem reparent_minN (s : St κ) (c p : Nat) : (s.reparent c p).minN = s.minN := by unfold St.reparent; split <;> rfl
@[simp] theorem reparent_maxN (s : St κ) (c p : Nat) : (s.reparent c p).maxN = s.maxN := by unfold St.reparent; split <;> rfl

theorem rid_ne {t : T κ} {x : Nat} (hx : x ∉ t.ids) (h0 : x ≠ 0) : x ≠ t.rid := by
  cases t with
  | nil => exact h0
  | node d l r => intro e; exact hx (by simp [e])

theorem rid_ne_zero {t : T κ} (h0 : 0 ∉ t.ids) (ht : t ≠ .nil) : t.rid ≠ 0 := fun e => h0 (e ▸ rid_mem ht)

/-- Membership in the ids of the three subtrees. -/
theorem rotLL_local {s : St κ} {p : Nat} {a b : D κ} {dd ee cc : T κ} (hT : RepT s.h p (.node a (.node b dd ee) cc))
    (hn : (T.node a (.node b dd ee) cc).ids.Nodup) (h0 : 0 ∉ (T.node a (.node b dd ee) cc).ids) :
    (rotLL s a.id).2 = b.id ∧ Outside s (rotLL s a.id).1 (T.node a (.node b dd ee) cc).ids ∧
    RepT (rotLL s a.id).1.h a.id (.node { b with rh := max b.rh a.rh + 1 } dd (.node { a with lh := b.rh } ee cc)) := by
  obtain ⟨ia, ⟨ib, rd, re⟩, rc⟩ := hT
  simp only [ids_node, List.nodup_append, List.nodup_cons, List.mem_append, List.mem_cons, not_or] at hn h0
  obtain ⟨⟨nd, ⟨nb, ne⟩, n1⟩, ⟨na, nc⟩, n2⟩ := hn
  obtain ⟨⟨zd, zb, ze⟩, za, zc⟩ := h0
  have eab : a.id ≠ b.id := fun e => n2 _ (.inr (.inl rfl)) _ (.inl e.symm) rfl
  have ade : a.id ∉ ee.ids := fun e => n2 _ (.inr (.inr e)) _ (.inl rfl) rfl
  have add' : a.id ∉ dd.ids := fun e => n2 _ (.inl e) _ (.inl rfl) rfl
  have bdd : b.id ∉ dd.ids := fun e => n1 _ e _ (.inl rfl) rfl
  have bcc : b.id ∉ cc.ids := fun e => n2 _ (.inr (.inl rfl)) _ (.inr e) rfl
  have are := rid_ne ade (Ne.symm za)
  have bre := rid_ne nb (Ne.symm zb)
  have hh : (rotLL s a.id).1.h = fun j =>
      if j = a.id then { s.h a.id with left := ee.rid, lh := b.rh, parent := b.id }
      else if j = b.id then { s.h b.id with right := a.id, rh := max b.rh a.rh + 1 }
      else if j = ee.rid ∧ ee.rid ≠ 0 then { s.h j with parent := a.id } else s.h j := by
    funext j
    have ial : (s.h a.id).left = b.id := ia.left
    simp only [rotLL, ial, ib.right, ib.rh, St.mod, reparent_h]
    by_cases h1 : j = a.id
    · subst h1; simp [are, eab, eab.symm, bre, ia.rh]
    · by_cases h2 : j = b.id
      · subst h2; simp [are, eab, eab.symm, bre, ia.rh]
      · by_cases h3 : j = ee.rid
        · subst h3; simp [h1, h2, are, bre]
        · simp [h1, h2, h3, are, bre]
  refine ⟨by simp [rotLL, ia.left], ⟨?_, ?_, ?_, ?_, ?_, ?_⟩, ⟨?_, ?_, ?_, ?_, ?_⟩⟩
  · intro i hi
    simp only [ids_node, List.mem_append, List.mem_cons, not_or] at hi
    rw [hh]
    simp only [hi.2.1, hi.1.2.1, if_false]
    rw [if_neg]
    rintro ⟨e, e0⟩
    have : ee ≠ .nil := by rintro rfl; exact e0 rfl
    exact hi.1.2.2 (e ▸ rid_mem this)
  · intro i; rw [hh]; simp only; split_ifs with h1 h2 h3 <;> first | (rw [h1]) | (rw [h2]) | rfl
  · intro i; rw [hh]; simp only; split_ifs with h1 h2 h3 <;> first | (rw [h1]) | (rw [h2]) | rfl
  · simp [rotLL]
  · simp [rotLL]
  · simp [rotLL]
  · rw [hh]
    simp only [eab.symm, if_false, if_true]
    exact ⟨ib.parent, ib.left, rfl, ib.lh, rfl, ib.mn, ib.mx, ib.vals⟩
  · refine rd.congr ?_
    intro i hi
    rw [hh]
    have e1 : i ≠ a.id := fun e => add' (e ▸ hi)
    have e2 : i ≠ b.id := fun e => bdd (e ▸ hi)
    have e3 : ¬ (i = ee.rid ∧ ee.rid ≠ 0) := by
      rintro ⟨e, e0⟩
      have : ee ≠ .nil := by rintro rfl; exact e0 rfl
      exact n1 _ hi _ (.inr (rid_mem this)) e
    simp only [e1, e2, e3, if_false]
    exact Nd.Same.refl _
  · rw [hh]
    simp only [if_true]
    exact ⟨rfl, rfl, ia.right, rfl, ia.rh, ia.mn, ia.mx, ia.vals⟩
  · refine re.reparent ne ?_ ?_
    · intro i hi hne
      rw [hh]
      have e1 : i ≠ a.id := fun e => ade (e ▸ hi)
      have e2 : i ≠ b.id := fun e => nb (e ▸ hi)
      simp only [e1, e2, hne, if_false, false_and]
      exact Nd.Same.refl _
    · intro hne
      rw [hh]
      simp only [are.symm, bre.symm, rid_ne_zero ze hne, if_false, if_true, ne_eq, not_false_eq_true, and_self]
      exact Nd.Same.refl _
  · refine rc.congr ?_
    intro i hi
    rw [hh]
    have e1 : i ≠ a.id := fun e => na (e ▸ hi)
    have e2 : i ≠ b.id := fun e => bcc (e ▸ hi)
    have e3 : ¬ (i = ee.rid ∧ ee.rid ≠ 0) := by
      rintro ⟨e, e0⟩
      have : ee ≠ .nil := by rintro rfl; exact e0 rfl
      exact n2 _ (.inr (.inr (rid_mem this))) _ (.inr hi) e.symm
    simp only [e1, e2, e3, if_false]
    exact Nd.Same.refl _

theorem rotRR_local {s : St κ} {p : Nat} {a b : D κ} {dd ee cc : T κ} (hT : RepT s.h p (.node a cc (.node b ee dd)))
    (hn : (T.node a cc (.node b ee dd)).ids.Nodup) (h0 : 0 ∉ (T.node a cc (.node b ee dd)).ids) :
    (rotRR s a.id).2 = b.id ∧ Outside s (rotRR s a.id).1 (T.node a cc (.node b ee dd)).ids ∧
    RepT (rotRR s a.id).1.h a.id (.node { b with lh := max b.lh a.lh + 1 } (.node { a with rh := b.lh } cc ee) dd) := by
  obtain ⟨ia, rc, ⟨ib, re, rd⟩⟩ := hT
  simp only [ids_node, List.nodup_append, List.nodup_cons, List.mem_append, List.mem_cons, not_or] at hn h0
  obtain ⟨nc, ⟨⟨a1, a2, a3⟩, ne, ⟨nb, nd⟩, n1⟩, n2⟩ := hn
  obtain ⟨zc, za, ze, zb, zd⟩ := h0
  have bcc : b.id ∉ cc.ids := fun e => n2 _ e _ (.inr (.inr (.inl rfl))) rfl
  have acc : a.id ∉ cc.ids := fun e => n2 _ e _ (.inl rfl) rfl
  have nbe : b.id ∉ ee.ids := fun e => n1 _ e _ (.inl rfl) rfl
  have are := rid_ne a1 (Ne.symm za)
  have bre := rid_ne nbe (Ne.symm zb)
  have hh : (rotRR s a.id).1.h = fun j =>
      if j = a.id then { s.h a.id with right := ee.rid, rh := b.lh, parent := b.id }
      else if j = b.id then { s.h b.id with left := a.id, lh := max b.lh a.lh + 1 }
      else if j = ee.rid ∧ ee.rid ≠ 0 then { s.h j with parent := a.id } else s.h j := by
    funext j
    have ial : (s.h a.id).right = b.id := ia.right
    have eab : a.id ≠ b.id := a2
    simp only [rotRR, ial, ib.left, ib.lh, St.mod, reparent_h]
    by_cases h1 : j = a.id
    · subst h1; simp [are, eab, eab.symm, bre, ia.lh]
    · by_cases h2 : j = b.id
      · subst h2; simp [are, eab, eab.symm, bre, ia.lh]
      · by_cases h3 : j = ee.rid
        · subst h3; simp [h1, h2, are, bre]
        · simp [h1, h2, h3, are, bre]
  refine ⟨by simp [rotRR, ia.right], ⟨?_, ?_, ?_, ?_, ?_, ?_⟩, ⟨?_, ⟨?_, ?_, ?_⟩, ?_⟩⟩
  · intro i hi
    simp only [ids_node, List.mem_append, List.mem_cons, not_or] at hi
    rw [hh]
    simp only [hi.2.1, hi.2.2.2.1, if_false]
    rw [if_neg]
    rintro ⟨e, e0⟩
    have : ee ≠ .nil := by rintro rfl; exact e0 rfl
    exact hi.2.2.1 (e ▸ rid_mem this)
  · intro i; rw [hh]; simp only; split_ifs with h1 h2 h3 <;> first | (rw [h1]) | (rw [h2]) | rfl
  · intro i; rw [hh]; simp only; split_ifs with h1 h2 h3 <;> first | (rw [h1]) | (rw [h2]) | rfl
  · simp [rotRR]
  · simp [rotRR]
  · simp [rotRR]
  · rw [hh]
    simp only [Ne.symm a2, if_false, if_true]
    exact ⟨ib.parent, rfl, ib.right, rfl, ib.rh, ib.mn, ib.mx, ib.vals⟩
  · rw [hh]
    simp only [if_true]
    exact ⟨rfl, ia.left, rfl, ia.lh, rfl, ia.mn, ia.mx, ia.vals⟩
  · refine rc.congr ?_
    intro i hi
    rw [hh]
    have e1 : i ≠ a.id := fun e => acc (e ▸ hi)
    have e2 : i ≠ b.id := fun e => bcc (e ▸ hi)
    have e3 : ¬ (i = ee.rid ∧ ee.rid ≠ 0) := by
      rintro ⟨e, e0⟩
      have : ee ≠ .nil := by rintro rfl; exact e0 rfl
      exact n2 _ hi _ (.inr (.inl (rid_mem this))) e
    simp only [e1, e2, e3, if_false]
    exact Nd.Same.refl _
  · refine re.reparent ne ?_ ?_
    · intro i hi hne
      rw [hh]
      have e1 : i ≠ a.id := fun e => a1 (e ▸ hi)
      have e2 : i ≠ b.id := fun e => nbe (e ▸ hi)
      simp only [e1, e2, hne, if_false, false_and]
      exact Nd.Same.refl _
    · intro hne
      rw [hh]
      simp only [are.symm, bre.symm, rid_ne_zero ze hne, if_false, if_true, ne_eq, not_false_eq_true, and_self]
      exact Nd.Same.refl _
  · refine rd.congr ?_
    intro i hi
    rw [hh]
    have e1 : i ≠ a.id := fun e => a3 (e ▸ hi)
    have e2 : i ≠ b.id := fun e => nb (e ▸ hi)
    have e3 : ¬ (i = ee.rid ∧ ee.rid ≠ 0) := by
      rintro ⟨e, e0⟩
      have : ee ≠ .nil := by rintro rfl; exact e0 rfl
      exact n1 _ (rid_mem this) _ (.inr hi) e.symm
    simp only [e1, e2, e3, if_false]
    exact Nd.Same.refl _

/-- The condition of the special double rotations. -/
def Special (b e : D κ) (f g : T κ) : Prop := e.vals.length = 1 ∧ g.rid = 0 ∧ f.rid = 0 ∧ b.vals.length = CAP

instance (b e : D κ) (f g : T κ) : Decidable (Special b e f g) := by unfold Special; infer_instance

def lrB (b e : D κ) (f g : T κ) : D κ :=
  if Special b e f g then { b with rh := e.lh, vals := b.vals.take 1, mx := b.mn } else { b with rh := e.lh }

def lrE (E : Env κ) (a b e : D κ) (f g : T κ) : D κ :=
  if Special b e f g then { e with lh := max e.lh b.lh + 1, rh := max a.rh e.rh + 1, vals := b.vals.drop 1 ++ e.vals, mn := E.key ((b.vals.drop 1 ++ e.vals).headD 0) }
  else { e with lh := max e.lh b.lh + 1, rh := max a.rh e.rh + 1 }

theorem rotLR_local {E : Env κ} {s : St κ} {p : Nat} {a b e : D κ} {dd ff gg cc : T κ} (hT : RepT s.h p (.node a (.node b dd (.node e ff gg)) cc))
    (hn : (T.node a (.node b dd (.node e ff gg)) cc).ids.Nodup) (h0 : 0 ∉ (T.node a (.node b dd (.node e ff gg)) cc).ids) :
    (rotLR E s a.id).2 = e.id ∧ Outside s (rotLR E s a.id).1 (T.node a (.node b dd (.node e ff gg)) cc).ids ∧
    RepT (rotLR E s a.id).1.h b.id (.node (lrE E a b e ff gg) (.node (lrB b e ff gg) dd ff) (.node { a with lh := e.rh } gg cc)) := by
  obtain ⟨ia, ⟨ib, rd, ⟨ie, rf, rg⟩⟩, rc⟩ := hT
  simp only [ids_node, List.nodup_append, List.nodup_cons, List.mem_append, List.mem_cons, not_or] at hn h0
  obtain ⟨⟨nd, ⟨⟨b1, b2, b3⟩, nf, ⟨g1, ng⟩, n3⟩, n1⟩, ⟨c1, nc⟩, n2⟩ := hn
  obtain ⟨⟨zd, zb, zf, ze, zg⟩, za, zc⟩ := h0
  have eab : a.id ≠ b.id := fun x => n2 _ (.inr (.inl rfl)) _ (.inl x.symm) rfl
  have eae : a.id ≠ e.id := fun x => n2 _ (.inr (.inr (.inr (.inl rfl)))) _ (.inl x.symm) rfl
  have b2 : b.id ≠ e.id := b2
  have aff : a.id ∉ ff.ids := fun x => n2 _ (.inr (.inr (.inl x))) _ (.inl rfl) rfl
  have agg : a.id ∉ gg.ids := fun x => n2 _ (.inr (.inr (.inr (.inr x)))) _ (.inl rfl) rfl
  have add' : a.id ∉ dd.ids := fun x => n2 _ (.inl x) _ (.inl rfl) rfl
  have bdd : b.id ∉ dd.ids := fun x => n1 _ x _ (.inl rfl) rfl
  have edd : e.id ∉ dd.ids := fun x => n1 _ x _ (.inr (.inr (.inl rfl))) rfl
  have eff : e.id ∉ ff.ids := fun x => n3 _ x _ (.inl rfl) rfl
  have bcc : b.id ∉ cc.ids := fun x => n2 _ (.inr (.inl rfl)) _ (.inr x) rfl
  have ecc : e.id ∉ cc.ids := fun x => n2 _ (.inr (.inr (.inr (.inl rfl)))) _ (.inr x) rfl
  have af := rid_ne aff (Ne.symm za)
  have ag := rid_ne agg (Ne.symm za)
  have bf := rid_ne b1 (Ne.symm zb)
  have bg := rid_ne b3 (Ne.symm zb)
  have ef := rid_ne eff (Ne.symm ze)
  have eg := rid_ne g1 (Ne.symm ze)
  have nrf : ∀ x, x = ff.rid ∧ ff.rid ≠ 0 → x ∈ ff.ids := by
    rintro x ⟨e, e0⟩
    have : ff ≠ .nil := by rintro rfl; exact e0 rfl
    exact e ▸ rid_mem this
  have nrg : ∀ x, x = gg.rid ∧ gg.rid ≠ 0 → x ∈ gg.ids := by
    rintro x ⟨e, e0⟩
    have : gg ≠ .nil := by rintro rfl; exact e0 rfl
    exact e ▸ rid_mem this
  have fg : ∀ x, ¬ ((x = ff.rid ∧ ff.rid ≠ 0) ∧ (x = gg.rid ∧ gg.rid ≠ 0)) := by
    rintro x ⟨h1, h2⟩
    exact n3 _ (nrf x h1) _ (.inr (nrg x h2)) rfl
  have hh : (rotLR E s a.id).1.h = fun j =>
      if j = a.id then { s.h a.id with left := gg.rid, lh := e.rh, parent := e.id }
      else if j = b.id then { s.h b.id with right := ff.rid, rh := e.lh, parent := e.id, vals := (lrB b e ff gg).vals, mx := (lrB b e ff gg).mx }
      else if j = e.id then { s.h e.id with left := b.id, right := a.id, lh := max e.lh b.lh + 1, rh := max a.rh e.rh + 1, vals := (lrE E a b e ff gg).vals, mn := (lrE E a b e ff gg).mn }
      else if j = gg.rid ∧ gg.rid ≠ 0 then { s.h j with parent := a.id }
      else if j = ff.rid ∧ ff.rid ≠ 0 then { s.h j with parent := b.id } else s.h j := by
    funext j
    have ial : (s.h a.id).left = b.id := ia.left
    have ibr : (s.h b.id).right = e.id := ib.right
    have fg' := fg j
    by_cases sp : Special b e ff gg
    · simp only [lrB, lrE, if_pos sp]
      obtain ⟨s1, s2, s3, s4⟩ := sp
      simp only [rotLR, ial, ibr, ie.right, ie.rh, ie.left, ie.lh, St.mod, reparent_h, eae.symm, b2.symm, if_false, if_true, s2, s3, ne_eq, not_true, and_false, ie.vals, ib.vals, s1, s4, and_self, b2, eab, eab.symm]
      by_cases h1 : j = a.id
      · subst h1; simp [eae, eab]
      · by_cases h2 : j = b.id
        · subst h2; simp [h1, b2, ib.mn]
        · by_cases h3 : j = e.id
          · subst h3; simp [h1, h2, eae, ib.lh, ia.rh]
          · simp [h1, h2, h3]
    · simp only [lrB, lrE, if_neg sp]
      have sp' : ¬ (e.vals.length = 1 ∧ gg.rid = 0 ∧ ff.rid = 0 ∧ b.vals.length = CAP) := sp
      simp only [rotLR, ial, ibr, ie.right, ie.rh, ie.left, ie.lh, St.mod, reparent_h, eae.symm, b2.symm, if_false, if_true, ef, eg, false_and, bf, bg, ie.vals, ib.vals, sp', b2, eab, eab.symm]
      by_cases h1 : j = a.id
      · subst h1; simp [eae, eab, af, ag]
      · by_cases h2 : j = b.id
        · subst h2; simp [h1, b2, bf, bg, ib.mx, ib.vals]
        · by_cases h3 : j = e.id
          · subst h3; simp [h1, h2, eae, ef, eg, ib.lh, ia.rh, ie.mn, ie.vals, bf, bg, af, ag, eae.symm]
          · simp only [h1, h2, h3, if_false]
            by_cases h4 : j = gg.rid ∧ ¬ gg.rid = 0
            · have h5 : ¬ (j = ff.rid ∧ ¬ ff.rid = 0) := fun h => fg' ⟨h, h4⟩
              rw [if_neg h5, if_pos h4, if_pos h4, ← h4.1, if_neg h1]
            · rw [if_neg h4]
              by_cases h5 : j = ff.rid ∧ ¬ ff.rid = 0
              · rw [if_pos h5, if_pos h5, ← h5.1, if_neg h2, if_neg h4, if_neg h1, if_neg (show ¬ (j = gg.rid ∧ gg.rid ≠ 0) from h4)]
              · rw [if_neg h5, if_neg h5, if_neg h4]
  have hidB : (lrB b e ff gg).id = b.id := by unfold lrB; split <;> rfl
  have hidE : (lrE E a b e ff gg).id = e.id := by unfold lrE; split <;> rfl
  have hout : ∀ i, i ≠ a.id → i ≠ b.id → i ≠ e.id → i ∉ ff.ids → i ∉ gg.ids → (rotLR E s a.id).1.h i = s.h i := by
    intro i e1 e2 e3 e4 e5
    rw [hh]
    simp only [e1, e2, e3, if_false]
    rw [if_neg (fun h => e5 (nrg i h)), if_neg (fun h => e4 (nrf i h))]
  refine ⟨by simp [rotLR, ia.left, ib.right], ⟨?_, ?_, ?_, ?_, ?_, ?_⟩, ⟨?_, ⟨?_, ?_, ?_⟩, ⟨?_, ?_, ?_⟩⟩⟩
  · intro i hi
    simp only [ids_node, List.mem_append, List.mem_cons, not_or] at hi
    exact hout i hi.2.1 hi.1.2.1 hi.1.2.2.2.1 hi.1.2.2.1 hi.1.2.2.2.2
  · intro i; rw [hh]; simp only; split_ifs with h1 h2 h3 <;> first | (rw [h1]) | (rw [h2]) | (rw [h3]) | rfl
  · intro i; rw [hh]; simp only; split_ifs with h1 h2 h3 <;> first | (rw [h1]) | (rw [h2]) | (rw [h3]) | rfl
  · simp only [rotLR]; split_ifs <;> simp
  · simp only [rotLR]; split_ifs <;> simp
  · simp only [rotLR]; split_ifs <;> simp
  · rw [hh, hidE]
    simp only [eae.symm, b2.symm, if_false, if_true]
    refine ⟨ie.parent, by simp [hidB], rfl, ?_, ?_, rfl, ?_, rfl⟩
    · unfold lrE; split <;> rfl
    · unfold lrE; split <;> rfl
    · unfold lrE; split <;> exact ie.mx
  · rw [hh, hidB, hidE]
    simp only [eab.symm, if_false, if_true]
    refine ⟨rfl, ib.left, rfl, ?_, ?_, ?_, rfl, rfl⟩
    · unfold lrB; split <;> exact ib.lh
    · unfold lrB; split <;> rfl
    · unfold lrB; split <;> exact ib.mn
  · rw [hidB]
    refine rd.congr ?_
    intro i hi
    rw [hout i (fun x => add' (x ▸ hi)) (fun x => bdd (x ▸ hi)) (fun x => edd (x ▸ hi)) (fun x => n1 _ hi _ (.inr (.inl x)) rfl)
      (fun x => n1 _ hi _ (.inr (.inr (.inr x))) rfl)]
    exact Nd.Same.refl _
  · rw [hidB]
    refine rf.reparent nf ?_ ?_
    · intro i hi hne
      rw [hh]
      have e1 : i ≠ a.id := fun x => aff (x ▸ hi)
      have e2 : i ≠ b.id := fun x => b1 (x ▸ hi)
      have e3 : i ≠ e.id := fun x => eff (x ▸ hi)
      have e4 : ¬ (i = gg.rid ∧ gg.rid ≠ 0) := fun h => n3 _ hi _ (.inr (nrg i h)) rfl
      simp only [e1, e2, e3, hne, if_false, false_and, e4]
      exact Nd.Same.refl _
    · intro hne
      have hz := rid_ne_zero zf hne
      have e4 : ¬ (ff.rid = gg.rid ∧ gg.rid ≠ 0) := fun h => fg _ ⟨⟨rfl, hz⟩, h⟩
      rw [hh]
      simp only [af.symm, bf.symm, ef.symm, e4, hz, if_false, if_true, ne_eq, not_false_eq_true, and_self]
      exact Nd.Same.refl _
  · rw [hh, hidE]
    simp only [if_true]
    exact ⟨rfl, rfl, ia.right, rfl, ia.rh, ia.mn, ia.mx, ia.vals⟩
  · refine rg.reparent ng ?_ ?_
    · intro i hi hne
      rw [hh]
      have e1 : i ≠ a.id := fun x => agg (x ▸ hi)
      have e2 : i ≠ b.id := fun x => b3 (x ▸ hi)
      have e3 : i ≠ e.id := fun x => g1 (x ▸ hi)
      have e4 : ¬ (i = ff.rid ∧ ff.rid ≠ 0) := fun h => n3 _ (nrf i h) _ (.inr hi) rfl
      simp only [e1, e2, e3, hne, if_false, false_and, e4]
      exact Nd.Same.refl _
    · intro hne
      have hz := rid_ne_zero zg hne
      rw [hh]
      simp only [ag.symm, bg.symm, eg.symm, hz, if_false, if_true, ne_eq, not_false_eq_true, and_self]
      exact Nd.Same.refl _
  · refine rc.congr ?_
    intro i hi
    rw [hout i (fun x => c1 (x ▸ hi)) (fun x => bcc (x ▸ hi)) (fun x => ecc (x ▸ hi)) (fun x => n2 _ (.inr (.inr (.inl x))) _ (.inr hi) rfl)
      (fun x => n2 _ (.inr (.inr (.inr (.inr x)))) _ (.inr hi) rfl)]
    exact Nd.Same.refl _

def rlB (b e : D κ) (f g : T κ) : D κ :=
  if Special b e f g then { b with lh := e.rh, vals := [b.vals.getLastD 0], mn := b.mx } else { b with lh := e.rh }

def rlE (E : Env κ) (a b e : D κ) (f g : T κ) : D κ :=
  if Special b e f g then { e with lh := max e.lh a.lh + 1, rh := max b.rh e.rh + 1, vals := e.vals ++ b.vals.dropLast, mx := E.key ((e.vals ++ b.vals.dropLast).getLastD 0) }
  else { e with lh := max e.lh a.lh + 1, rh := max b.rh e.rh + 1 }

theorem rotRL_local {E : Env κ} {s : St κ} {p : Nat} {a b e : D κ} {dd ff gg cc : T κ} (hT : RepT s.h p (.node a cc (.node b (.node e gg ff) dd)))
    (hn : (T.node a cc (.node b (.node e gg ff) dd)).ids.Nodup) (h0 : 0 ∉ (T.node a cc (.node b (.node e gg ff) dd)).ids) :
    (rotRL E s a.id).2 = e.id ∧ Outside s (rotRL E s a.id).1 (T.node a cc (.node b (.node e gg ff) dd)).ids ∧
    RepT (rotRL E s a.id).1.h b.id (.node (rlE E a b e gg ff) (.node { a with rh := e.lh } cc gg) (.node (rlB b e gg ff) ff dd)) := by
  obtain ⟨ia, rc, ⟨ib, ⟨ie, rg, rf⟩, rd⟩⟩ := hT
  simp only [ids_node, List.nodup_append, List.nodup_cons, List.mem_append, List.mem_cons, not_or] at hn h0
  obtain ⟨nc, ⟨⟨⟨agg, eae, aff⟩, eab, add'⟩, ⟨ng, ⟨eff, nf⟩, n3⟩, ⟨bdd, nd⟩, n1⟩, n2⟩ := hn
  obtain ⟨zc, za, ⟨zg, ze, zf⟩, zb, zd⟩ := h0
  have eab : a.id ≠ b.id := eab
  have eae : a.id ≠ e.id := eae
  have b2 : b.id ≠ e.id := fun x => n1 _ (.inr (.inl rfl)) _ (.inl x.symm) rfl
  have b1 : b.id ∉ ff.ids := fun x => n1 _ (.inr (.inr x)) _ (.inl rfl) rfl
  have b3 : b.id ∉ gg.ids := fun x => n1 _ (.inl x) _ (.inl rfl) rfl
  have edd : e.id ∉ dd.ids := fun x => n1 _ (.inr (.inl rfl)) _ (.inr x) rfl
  have g1 : e.id ∉ gg.ids := fun x => n3 _ x _ (.inl rfl) rfl
  have bcc : b.id ∉ cc.ids := fun x => n2 _ x _ (.inr (.inr (.inl rfl))) rfl
  have ecc : e.id ∉ cc.ids := fun x => n2 _ x _ (.inr (.inl (.inr (.inl rfl)))) rfl
  have c1 : a.id ∉ cc.ids := fun x => n2 _ x _ (.inl rfl) rfl
  have af := rid_ne aff (Ne.symm za)
  have ag := rid_ne agg (Ne.symm za)
  have bf := rid_ne b1 (Ne.symm zb)
  have bg := rid_ne b3 (Ne.symm zb)
  have ef := rid_ne eff (Ne.symm ze)
  have eg := rid_ne g1 (Ne.symm ze)
  have nrf : ∀ x, x = ff.rid ∧ ff.rid ≠ 0 → x ∈ ff.ids := by
    rintro x ⟨e, e0⟩
    have : ff ≠ .nil := by rintro rfl; exact e0 rfl
    exact e ▸ rid_mem this
  have nrg : ∀ x, x = gg.rid ∧ gg.rid ≠ 0 → x ∈ gg.ids := by
    rintro x ⟨e, e0⟩
    have : gg ≠ .nil := by rintro rfl; exact e0 rfl
    exact e ▸ rid_mem this
  have fg : ∀ x, ¬ ((x = ff.rid ∧ ff.rid ≠ 0) ∧ (x = gg.rid ∧ gg.rid ≠ 0)) := by
    rintro x ⟨h1, h2⟩
    exact n3 _ (nrg x h2) _ (.inr (nrf x h1)) rfl
  have hh : (rotRL E s a.id).1.h = fun j =>
      if j = a.id then { s.h a.id with right := gg.rid, rh := e.lh, parent := e.id }
      else if j = b.id then { s.h b.id with left := ff.rid, lh := e.rh, parent := e.id, vals := (rlB b e gg ff).vals, mn := (rlB b e gg ff).mn }
      else if j = e.id then { s.h e.id with left := a.id, right := b.id, lh := max e.lh a.lh + 1, rh := max b.rh e.rh + 1, vals := (rlE E a b e gg ff).vals, mx := (rlE E a b e gg ff).mx }
      else if j = gg.rid ∧ gg.rid ≠ 0 then { s.h j with parent := a.id }
      else if j = ff.rid ∧ ff.rid ≠ 0 then { s.h j with parent := b.id } else s.h j := by
    funext j
    have ial : (s.h a.id).right = b.id := ia.right
    have ibr : (s.h b.id).left = e.id := ib.left
    have fg' := fg j
    by_cases sp : Special b e gg ff
    · simp only [rlB, rlE, if_pos sp]
      obtain ⟨s1, s2, s3, s4⟩ := sp
      simp only [rotRL, ial, ibr, ie.right, ie.rh, ie.left, ie.lh, St.mod, reparent_h, eae.symm, b2.symm, if_false, if_true, s2, s3, ne_eq, not_true, and_false, ie.vals, ib.vals, s1, s4, and_self, b2, eab, eab.symm]
      by_cases h1 : j = a.id
      · subst h1; simp [eae, eab]
      · by_cases h2 : j = b.id
        · subst h2; simp [h1, b2, ib.mx, ib.vals]
        · by_cases h3 : j = e.id
          · subst h3; simp [h1, h2, eae, ib.rh, ia.lh]
          · simp [h1, h2, h3]
    · simp only [rlB, rlE, if_neg sp]
      have sp' : ¬ (e.vals.length = 1 ∧ ff.rid = 0 ∧ gg.rid = 0 ∧ b.vals.length = CAP) := sp
      simp only [rotRL, ial, ibr, ie.right, ie.rh, ie.left, ie.lh, St.mod, reparent_h, eae.symm, b2.symm, if_false, if_true, ef, eg, false_and, bf, bg, ie.vals, ib.vals, sp', b2, eab, eab.symm]
      by_cases h1 : j = a.id
      · subst h1; simp [eae, eab, af, ag]
      · by_cases h2 : j = b.id
        · subst h2; simp [h1, b2, bf, bg, ib.mn, ib.vals]
        · by_cases h3 : j = e.id
          · subst h3; simp [h1, h2, eae, ef, eg, ib.rh, ia.lh, ie.mx, ie.vals, bf, bg, af, ag, eae.symm]
          · simp only [h1, h2, h3, if_false]
            by_cases h4 : j = gg.rid ∧ ¬ gg.rid = 0
            · have h5 : ¬ (j = ff.rid ∧ ¬ ff.rid = 0) := fun h => fg' ⟨h, h4⟩
              rw [if_neg h5, if_pos h4, if_pos h4, ← h4.1, if_neg h1]
            · rw [if_neg h4]
              by_cases h5 : j = ff.rid ∧ ¬ ff.rid = 0
              · rw [if_pos h5, if_pos h5, ← h5.1, if_neg h2, if_neg h4, if_neg h1, if_neg (show ¬ (j = gg.rid ∧ gg.rid ≠ 0) from h4)]
              · rw [if_neg h5, if_neg h5, if_neg h4]
  have hidB : (rlB b e gg ff).id = b.id := by unfold rlB; split <;> rfl
  have hidE : (rlE E a b e gg ff).id = e.id := by unfold rlE; split <;> rfl
  have hout : ∀ i, i ≠ a.id → i ≠ b.id → i ≠ e.id → i ∉ ff.ids → i ∉ gg.ids → (rotRL E s a.id).1.h i = s.h i := by
    intro i e1 e2 e3 e4 e5
    rw [hh]
    simp only [e1, e2, e3, if_false]
    rw [if_neg (fun h => e5 (nrg i h)), if_neg (fun h => e4 (nrf i h))]
  refine ⟨by simp [rotRL, ia.right, ib.left], ⟨?_, ?_, ?_, ?_, ?_, ?_⟩, ⟨?_, ⟨?_, ?_, ?_⟩, ⟨?_, ?_, ?_⟩⟩⟩
  · intro i hi
    simp only [ids_node, List.mem_append, List.mem_cons, not_or] at hi
    exact hout i hi.2.1 hi.2.2.2.1 hi.2.2.1.2.1 hi.2.2.1.2.2 hi.2.2.1.1
  · intro i; rw [hh]; simp only; split_ifs with h1 h2 h3 <;> first | (rw [h1]) | (rw [h2]) | (rw [h3]) | rfl
  · intro i; rw [hh]; simp only; split_ifs with h1 h2 h3 <;> first | (rw [h1]) | (rw [h2]) | (rw [h3]) | rfl
  · simp only [rotRL]; split_ifs <;> simp
  · simp only [rotRL]; split_ifs <;> simp
  · simp only [rotRL]; split_ifs <;> simp
  · rw [hh, hidE]
    simp only [eae.symm, b2.symm, if_false, if_true]
    refine ⟨ie.parent, rfl, by simp [hidB], ?_, ?_, ?_, rfl, rfl⟩
    · unfold rlE; split <;> rfl
    · unfold rlE; split <;> rfl
    · unfold rlE; split <;> exact ie.mn
  · rw [hh, hidE]
    simp only [if_true]
    exact ⟨rfl, ia.left, rfl, ia.lh, rfl, ia.mn, ia.mx, ia.vals⟩
  · refine rc.congr ?_
    intro i hi
    rw [hout i (fun x => c1 (x ▸ hi)) (fun x => bcc (x ▸ hi)) (fun x => ecc (x ▸ hi)) (fun x => n2 _ hi _ (.inr (.inl (.inr (.inr x)))) rfl)
      (fun x => n2 _ hi _ (.inr (.inl (.inl x))) rfl)]
    exact Nd.Same.refl _
  · refine rg.reparent ng ?_ ?_
    · intro i hi hne
      rw [hh]
      have e1 : i ≠ a.id := fun x => agg (x ▸ hi)
      have e2 : i ≠ b.id := fun x => b3 (x ▸ hi)
      have e3 : i ≠ e.id := fun x => g1 (x ▸ hi)
      have e4 : ¬ (i = ff.rid ∧ ff.rid ≠ 0) := fun h => n3 _ hi _ (.inr (nrf i h)) rfl
      simp only [e1, e2, e3, hne, if_false, false_and, e4]
      exact Nd.Same.refl _
    · intro hne
      have hz := rid_ne_zero zg hne
      rw [hh]
      simp only [ag.symm, bg.symm, eg.symm, hz, if_false, if_true, ne_eq, not_false_eq_true, and_self]
      exact Nd.Same.refl _
  · rw [hh, hidB, hidE]
    simp only [eab.symm, if_false, if_true]
    refine ⟨rfl, rfl, ib.right, ?_, ?_, rfl, ?_, rfl⟩
    · unfold rlB; split <;> rfl
    · unfold rlB; split <;> exact ib.rh
    · unfold rlB; split <;> exact ib.mx
  · rw [hidB]
    refine rf.reparent nf ?_ ?_
    · intro i hi hne
      rw [hh]
      have e1 : i ≠ a.id := fun x => aff (x ▸ hi)
      have e2 : i ≠ b.id := fun x => b1 (x ▸ hi)
      have e3 : i ≠ e.id := fun x => eff (x ▸ hi)
      have e4 : ¬ (i = gg.rid ∧ gg.rid ≠ 0) := fun h => n3 _ (nrg i h) _ (.inr hi) rfl
      simp only [e1, e2, e3, hne, if_false, false_and, e4]
      exact Nd.Same.refl _
    · intro hne
      have hz := rid_ne_zero zf hne
      have e4 : ¬ (ff.rid = gg.rid ∧ gg.rid ≠ 0) := fun h => fg _ ⟨⟨rfl, hz⟩, h⟩
      rw [hh]
      simp only [af.symm, bf.symm, ef.symm, e4, hz, if_false, if_true, ne_eq, not_false_eq_true, and_self]
      exact Nd.Same.refl _
  · rw [hidB]
    refine rd.congr ?_
    intro i hi
    rw [hout i (fun x => add' (x ▸ hi)) (fun x => bdd (x ▸ hi)) (fun x => edd (x ▸ hi)) (fun x => n1 _ (.inr (.inr x)) _ (.inr hi) rfl)
      (fun x => n1 _ (.inl x) _ (.inr hi) rfl)]
    exact Nd.Same.refl _

end WG.TTree
