import Verif.TTree.Index
/-!
# Ranges of rows
-/
namespace WG.TTree
variable {κ : Type}
open T

/-! ## Positions -/

/-- Cursor before row number `n`. -/
def StartAt (L : List (D κ)) (n : Nat) (x : Nat × Int) : Prop :=
  (n = (elemsC L).length ∧ x.1 = 0) ∨
    ∃ (pre : List (D κ)) (d : D κ) (post : List (D κ)) (i : Nat), L = pre ++ d :: post ∧ x = (d.id, (i : Int)) ∧ i < d.vals.length ∧ n = (elemsC pre).length + i

/-- Cursor on the last of the first `n` rows. -/
def EndAt (L : List (D κ)) (n : Nat) (x : Nat × Int) : Prop :=
  (n = 0 ∧ x.1 = 0) ∨
    ∃ (pre : List (D κ)) (d : D κ) (post : List (D κ)) (i : Nat), L = pre ++ d :: post ∧ x = (d.id, (i : Int)) ∧ i < d.vals.length ∧ n = (elemsC pre).length + i + 1

/-- `n` separates the rows that satisfy `p` from those that do not. -/
def Splits (l : List Nat) (p : Nat → Prop) (n : Nat) : Prop := ∃ A B, l = A ++ B ∧ n = A.length ∧ (∀ x ∈ A, p x) ∧ (∀ x ∈ B, ¬ p x)

theorem startAt_next {L pre post : List (D κ)} {d : D κ} {E : Env κ} (hok : ∀ e ∈ L, NOk E e) (e : L = pre ++ d :: post) :
    StartAt L ((elemsC pre).length + d.vals.length) (headId post, 0) := by
  cases post with
  | nil => refine .inl ⟨by simp [e, elemsC], rfl⟩
  | cons b q =>
    refine .inr ⟨pre ++ [d], b, q, 0, by simp [e], rfl, ?_, by simp [elemsC]⟩
    exact List.length_pos_iff.2 (hok b (by simp [e])).ne

theorem endAt_prev {s : St κ} {t : T κ} {E : Env κ} (hw : Whole E s t) {pre post : List (D κ)} {d : D κ} (e : t.nodes = pre ++ d :: post) :
    EndAt t.nodes (elemsC pre).length (lastSlot s (s.h d.id).pred (-1)) := by
  rw [(hw.rep.links e).1]
  rcases List.eq_nil_or_concat pre with h | ⟨q, b, h⟩
  · subst h
    exact .inl ⟨rfl, rfl⟩
  · rw [List.concat_eq_append] at h
    subst h
    have hb : b ∈ t.nodes := by simp [e]
    have hb0 : b.id ≠ 0 := fun x => hw.rep.pos (List.mem_map.2 ⟨b, hb, x⟩)
    obtain ⟨_, _, _, ib⟩ := hw.rep.get hb
    have hl := List.length_pos_iff.2 (hw.nok b hb).ne
    rw [lastId_concat]
    refine .inr ⟨q, b, d :: post, b.vals.length - 1, by simp [e], ?_, by omega, by simp [elemsC]; omega⟩
    simp only [lastSlot, ne_eq, hb0, not_false_eq_true, if_true, ib.vals, Prod.mk.injEq, true_and]
    omega

theorem tnodeFirst_spec {E : Env κ} {s : St κ} {node : Nat} {key : κ} {i : Nat} (h : tnodeFirst E s node key = some i) :
    i < (s.h node).vals.length ∧ (∀ x ∈ (s.h node).vals.take i, E.cmp (E.key x) key = .lt) ∧ E.cmp (E.key ((s.h node).vals.getD i 0)) key ≠ .lt := by
  unfold tnodeFirst at h
  generalize (s.h node).vals = l at *
  induction l generalizing i with
  | nil => simp at h
  | cons a l ih =>
    rw [List.findIdx?_cons] at h
    by_cases g : E.cmp (E.key a) key = .lt
    · simp only [g, bne_self_eq_false, Bool.false_eq_true, if_false, Option.map_eq_some_iff] at h
      obtain ⟨j, hj, rfl⟩ := h
      obtain ⟨h1, h2, h3⟩ := ih hj
      refine ⟨by simpa using h1, ?_, by simpa using h3⟩
      intro x hx
      simp only [List.take_succ_cons, List.mem_cons] at hx
      rcases hx with rfl | hx
      · exact g
      · exact h2 x hx
    · have : (E.cmp (E.key a) key != .lt) = true := by simpa using g
      rw [if_pos this] at h
      simp only [Option.some.injEq] at h
      subst h
      exact ⟨by simp, by simp, by simpa using g⟩

theorem tnodeFirst_none {E : Env κ} {s : St κ} {node : Nat} {key : κ} (h : tnodeFirst E s node key = none) : ∀ x ∈ (s.h node).vals, E.cmp (E.key x) key = .lt := by
  unfold tnodeFirst at h
  rw [List.findIdx?_eq_none_iff] at h
  intro x hx
  simpa using h x hx

theorem lastScan_spec {E : Env κ} {l : List Nat} {key : κ} : ∀ {n i : Nat}, lastScan E l key n = some i →
    i < n ∧ E.cmp (E.key (l.getD i 0)) key ≠ .gt ∧ ∀ j, i < j → j < n → E.cmp (E.key (l.getD j 0)) key = .gt := by
  intro n
  induction n with
  | zero => intro i h; simp [lastScan] at h
  | succ n ih =>
    intro i h
    rw [lastScan] at h
    by_cases g : E.cmp (E.key (l.getD n 0)) key = .gt
    · rw [g] at h
      simp only [bne_self_eq_false, Bool.false_eq_true, if_false] at h
      obtain ⟨h1, h2, h3⟩ := ih h
      refine ⟨by omega, h2, fun j hj hj' => ?_⟩
      by_cases e : j = n
      · subst e; exact g
      · exact h3 j hj (by omega)
    · rw [if_pos (by simpa using g)] at h
      simp only [Option.some.injEq] at h
      subst h
      exact ⟨by omega, g, fun j h1 h2 => by omega⟩

theorem lastScan_none {E : Env κ} {l : List Nat} {key : κ} : ∀ {n : Nat}, lastScan E l key n = none → ∀ j, j < n → E.cmp (E.key (l.getD j 0)) key = .gt := by
  intro n
  induction n with
  | zero => intro _ j hj; omega
  | succ n ih =>
    intro h j hj
    rw [lastScan] at h
    by_cases g : E.cmp (E.key (l.getD n 0)) key = .gt
    · rw [g] at h
      simp only [bne_self_eq_false, Bool.false_eq_true, if_false] at h
      by_cases e : j = n
      · subst e; exact g
      · exact ih h j (by omega)
    · rw [if_pos (by simpa using g)] at h
      simp at h

/-! ## The first and last row of a range -/

section
variable {E : Env κ} {P : κ → Prop} (O : Ord E P) {s : St κ} {t : T κ} (hw : Whole E s t) (hne : t ≠ .nil) (hs : Sorted E P (elems t)) {key : κ} (hp : P key)
include O hw hne hs hp

/-- What a leftmost search says about the rows. -/
theorem left_rows {k : Nat} (hk : t.height ≤ k) {node : Nat} {bt : Bound} (h : searchLeft E s key k s.root 0 = (node, bt)) :
    ∃ pre d post, t.nodes = pre ++ d :: post ∧ node = d.id ∧ (∀ x ∈ elemsC pre, E.cmp (E.key x) key = .lt) ∧ (∀ x ∈ elemsC post, bt ≠ .deadRight → E.cmp (E.key x) key ≠ .lt) ∧
      (bt = .really → E.cmp key d.mx ≠ .gt ∧ E.cmp key d.mn ≠ .lt) ∧
      (bt = .deadLeft → ∀ x ∈ d.vals, E.cmp (E.key x) key ≠ .lt) ∧
      (bt = .deadRight → (∀ x ∈ d.vals, E.cmp (E.key x) key = .lt) ∧ ∀ x ∈ elemsC post, E.cmp (E.key x) key ≠ .lt) := by
  have hns : NSorted E P t.nodes := nsorted O hs hw.nok
  have hsl := searchLeft_res O hp t [] k hk hne hw.rep hns (by simp [preN]) (by simp [postN])
  rw [show headId (postN ([] : Ctx κ)) = 0 from rfl, ← hw.rep.root, h] at hsl
  obtain ⟨pre, d, post, hnodes, hid, hpre, hb⟩ := hsl
  simp only [plug] at hnodes hid
  have hs' : Sorted E P (elemsC (pre ++ d :: post)) := by rw [← hnodes]; exact hs
  have hok' : ∀ e ∈ pre ++ d :: post, NOk E e := by rw [← hnodes]; exact hw.nok
  obtain ⟨b1, b2, b3, b4, b5, b6⟩ := hs'.around O hok'
  have hpx : ∀ x ∈ elems t, P (E.key x) := hs.P
  have hmem : ∀ {x}, x ∈ elemsC pre ∨ x ∈ d.vals ∨ x ∈ elemsC post → P (E.key x) := by
    intro x hx
    refine hpx x ?_
    unfold elems
    rw [hnodes]
    simpa [elemsC] using hx
  have hlow : ∀ x ∈ elemsC pre, E.cmp (E.key x) key = .lt := by
    intro x hx
    obtain ⟨e, he, hm⟩ := List.mem_flatMap.1 hx
    obtain ⟨p1, p2, rfl⟩ := List.append_of_mem he
    have h2 : Sorted E P (elemsC (p1 ++ e :: (p2 ++ d :: post))) := by simpa using hs'
    obtain ⟨q1, q2, q3⟩ := to_mx O h2 (by simpa using hok') hm
    exact O.le_lt q3 q2 hp q1 ((O.gt_iff hp q2).1 (hpre e (by simp)))
  have ge_of : ∀ {x m}, P m → P (E.key x) → E.le m (E.key x) → E.le key m → E.cmp (E.key x) key ≠ .lt := by
    intro x m hm hx h1 h2
    rw [O.ge_iff hx hp]
    exact O.trans hp hm hx h2 h1
  refine ⟨pre, d, post, hnodes, hid, hlow, ?_, ?_, ?_, ?_⟩
  · intro x hx hbt
    have hx' := b2 x hx
    cases bt with
    | really => exact ge_of b6 hx'.2 hx'.1 hb.1
    | deadLeft =>
      refine ge_of b6 hx'.2 hx'.1 ?_
      exact O.le_of_lt (O.lt_le hp b5 b6 hb.1 (hns.le d (by simp [hnodes])))
    | deadRight => exact absurd rfl hbt
  · rintro rfl; exact hb
  · rintro rfl x hx
    obtain ⟨q1, q2, q3⟩ := b3 x hx
    exact ge_of b5 q3 q1 (O.le_of_lt hb.1)
  · rintro rfl
    refine ⟨fun x hx => ?_, fun x hx => ?_⟩
    · obtain ⟨q1, q2, q3⟩ := b3 x hx
      exact O.le_lt q3 b6 hp q2 ((O.gt_iff hp b6).1 hb.1)
    · cases post with
      | nil => simp [elemsC] at hx
      | cons b q =>
        have h2 : Sorted E P (elemsC ((pre ++ [d]) ++ b :: q)) := by simpa using hs'
        obtain ⟨q1, q2, q3⟩ := from_mn O h2 (by simpa using hok') hx
        exact ge_of q2 q3 q1 (O.le_of_lt (hb.2.1 b (by simp)))

theorem right_rows {k : Nat} (hk : t.height ≤ k) {node : Nat} {bt : Bound} (h : searchRight E s key k s.root 0 = (node, bt)) :
    ∃ pre d post, t.nodes = pre ++ d :: post ∧ node = d.id ∧ (∀ x ∈ elemsC post, E.cmp (E.key x) key = .gt) ∧ (∀ x ∈ elemsC pre, bt ≠ .deadLeft → E.cmp (E.key x) key ≠ .gt) ∧
      (bt = .really → E.cmp key d.mx ≠ .gt ∧ E.cmp key d.mn ≠ .lt) ∧
      (bt = .deadRight → ∀ x ∈ d.vals, E.cmp (E.key x) key ≠ .gt) ∧
      (bt = .deadLeft → (∀ x ∈ d.vals, E.cmp (E.key x) key = .gt) ∧ ∀ x ∈ elemsC pre, E.cmp (E.key x) key ≠ .gt) := by
  have hns : NSorted E P t.nodes := nsorted O hs hw.nok
  have hsl := searchRight_res O hp t [] k hk hne hw.rep hns (by simp [postN]) (by simp [preN])
  rw [show lastId (preN ([] : Ctx κ)) = 0 from rfl, ← hw.rep.root, h] at hsl
  obtain ⟨pre, d, post, hnodes, hid, hpost, hb⟩ := hsl
  simp only [plug] at hnodes hid
  have hs' : Sorted E P (elemsC (pre ++ d :: post)) := by rw [← hnodes]; exact hs
  have hok' : ∀ e ∈ pre ++ d :: post, NOk E e := by rw [← hnodes]; exact hw.nok
  obtain ⟨b1, b2, b3, b4, b5, b6⟩ := hs'.around O hok'
  have le_of : ∀ {x m}, P m → P (E.key x) → E.le (E.key x) m → E.le m key → E.cmp (E.key x) key ≠ .gt := by
    intro x m hm hx h1 h2
    exact O.trans hx hm hp h1 h2
  have gt_of : ∀ {x m}, P m → P (E.key x) → E.le m (E.key x) → E.cmp key m = .lt → E.cmp (E.key x) key = .gt := by
    intro x m hm hx h1 h2
    rw [O.gt_iff hx hp]
    exact O.lt_le hp hm hx h2 h1
  refine ⟨pre, d, post, hnodes, hid, ?_, ?_, ?_, ?_, ?_⟩
  · intro x hx
    obtain ⟨e, he, hm⟩ := List.mem_flatMap.1 hx
    obtain ⟨p1, p2, rfl⟩ := List.append_of_mem he
    have h2 : Sorted E P (elemsC ((pre ++ d :: p1) ++ e :: p2)) := by simpa using hs'
    obtain ⟨q1, q2, q3⟩ := from_mn O h2 (by simpa using hok') (x := x) (by rw [elemsC_cons]; exact List.mem_append.2 (.inl hm))
    exact gt_of q2 q3 q1 (hpost e (by simp))
  · intro x hx hbt
    have hx' := b1 x hx
    cases bt with
    | really => exact le_of b5 hx'.2 hx'.1 ((O.ge_iff hp b5).1 hb.1)
    | deadRight =>
      refine le_of b5 hx'.2 hx'.1 ?_
      exact O.trans b5 b6 hp (hns.le d (by simp [hnodes])) (O.le_of_lt ((O.gt_iff hp b6).1 hb.1))
    | deadLeft => exact absurd rfl hbt
  · rintro rfl; exact ⟨hb.2, hb.1⟩
  · rintro rfl x hx
    obtain ⟨q1, q2, q3⟩ := b3 x hx
    exact le_of b6 q3 q2 (O.le_of_lt ((O.gt_iff hp b6).1 hb.1))
  · rintro rfl
    refine ⟨fun x hx => ?_, fun x hx => ?_⟩
    · obtain ⟨q1, q2, q3⟩ := b3 x hx
      exact gt_of b5 q3 q1 hb.1
    · rcases List.eq_nil_or_concat pre with h | ⟨q, b, h⟩
      · subst h; simp [elemsC] at hx
      · rw [List.concat_eq_append] at h
        subst h
        have h2 : Sorted E P (elemsC (q ++ b :: d :: post)) := by simpa using hs'
        obtain ⟨c1, c2, c3, c4, c5, c6⟩ := h2.around O (by simpa using hok')
        have hbm : E.le b.mx key := O.le_of_lt ((O.gt_iff hp c6).1 (hb.2.1 b (by simp)))
        rw [elemsC_append, List.mem_append] at hx
        rcases hx with hx | hx
        · have := c1 x hx
          exact le_of c6 this.2 (O.trans this.2 c5 c6 this.1 (hns.le b (by simp [hnodes]))) hbm
        · have : x ∈ b.vals := by simpa [elemsC] using hx
          obtain ⟨q1, q2, q3⟩ := c3 x this
          exact le_of c6 q3 q2 hbm

end

/-- A list of nodes with distinct addresses splits in one way at an address. -/
theorem split_unique {pre pre' post post' : List (D κ)} {d d' : D κ} (h : ((pre ++ d :: post).map D.id).Nodup) (e : pre ++ d :: post = pre' ++ d' :: post') (hid : d.id = d'.id) : pre' = pre := by
  induction pre generalizing pre' with
  | nil =>
    cases pre' with
    | nil => rfl
    | cons a q =>
      simp only [List.nil_append, List.cons_append, List.cons.injEq] at e
      obtain ⟨rfl, rfl⟩ := e
      simp [hid] at h
  | cons a q ih =>
    cases pre' with
    | nil =>
      simp only [List.nil_append, List.cons_append, List.cons.injEq] at e
      obtain ⟨rfl, rfl⟩ := e
      simp [hid] at h
    | cons b q' =>
      simp only [List.cons_append, List.cons.injEq] at e
      obtain ⟨rfl, e⟩ := e
      simp only [List.cons_append, List.map_cons, List.nodup_cons] at h
      rw [ih h.2 e]

theorem take_getD {l : List Nat} {i : Nat} (h : i < l.length) : l = l.take i ++ l.getD i 0 :: l.drop (i + 1) := by
  conv => lhs; rw [← List.take_append_drop i l]
  rw [List.drop_eq_getElem_cons h]
  simp [List.getD, h]

section
variable [DecidableEq κ] {E : Env κ} {P : κ → Prop} (O : Ord E P) {s : St κ} {t : T κ} (hw : Whole E s t) (hne : t ≠ .nil) (hs : Sorted E P (elems t)) {key : κ} (hp : P key) (hill : key ≠ E.ill)
include O hw hne hs hp hill

theorem startPos_incl {k : Nat} (hk : t.height ≤ k) : ∃ x n, startPos E k s key true = some x ∧ StartAt t.nodes n x ∧ Splits (elems t) (fun r => E.cmp (E.key r) key = .lt) n := by
  unfold startPos
  simp only [if_neg hill, if_true]
  generalize hx : searchLeft E s key k s.root 0 = x
  obtain ⟨node, bt⟩ := x
  obtain ⟨pre, d, post, e, rfl, h1, h2, h3, h4, h5⟩ := left_rows O hw hne hs hp hk hx
  have hd : d ∈ t.nodes := by simp [e]
  obtain ⟨_, _, _, i0⟩ := hw.rep.get hd
  have hel : elems t = elemsC pre ++ (d.vals ++ elemsC post) := by unfold elems; rw [e]; simp [elemsC]
  have hlen := List.length_pos_iff.2 (hw.nok d hd).ne
  cases bt with
  | deadLeft =>
    refine ⟨_, _, rfl, .inr ⟨pre, d, post, 0, e, rfl, hlen, rfl⟩, elemsC pre, d.vals ++ elemsC post, hel, by simp, h1, ?_⟩
    intro x hx
    rcases List.mem_append.1 hx with hx | hx
    · exact h4 rfl x hx
    · exact h2 x hx (by simp)
  | deadRight =>
    simp only [(hw.rep.links e).2]
    refine ⟨_, _, rfl, startAt_next hw.nok e, elemsC pre ++ d.vals, elemsC post, by rw [hel, List.append_assoc], by simp, ?_, (h5 rfl).2⟩
    intro x hx
    rcases List.mem_append.1 hx with hx | hx
    · exact h1 x hx
    · exact (h5 rfl).1 x hx
  | really =>
    have hs' : Sorted E P (elemsC (pre ++ d :: post)) := by rw [← e]; exact hs
    have hok' : ∀ e ∈ pre ++ d :: post, NOk E e := by rw [← e]; exact hw.nok
    obtain ⟨b1, b2, b3, b4, b5, b6⟩ := hs'.around O hok'
    cases hf : tnodeFirst E s d.id key with
    | none =>
      exfalso
      have := tnodeFirst_none hf
      rw [i0.vals] at this
      have h6 := this _ (last_mem (hw.nok d hd).ne)
      rw [← (hw.nok d hd).mx] at h6
      exact (h3 rfl).1 ((O.gt_iff hp b6).2 h6)
    | some i =>
      obtain ⟨q1, q2, q3⟩ := tnodeFirst_spec hf
      rw [i0.vals] at q1 q2 q3
      refine ⟨(d.id, (i : Int)), _, by simp only [hf, Option.map_some], .inr ⟨pre, d, post, i, e, rfl, q1, rfl⟩, elemsC pre ++ d.vals.take i, d.vals.drop i ++ elemsC post, ?_, ?_, ?_, ?_⟩
      · rw [hel, List.append_assoc, ← List.append_assoc (d.vals.take _), List.take_append_drop]
      · simp; omega
      · intro x hx
        rcases List.mem_append.1 hx with hx | hx
        · exact h1 x hx
        · exact q2 x hx
      · intro x hx
        rcases List.mem_append.1 hx with hx | hx
        · refine (O.ge_iff (b3 x (List.mem_of_mem_drop hx)).2.2 hp).2 ?_
          have hsv : d.vals.Pairwise (fun a b => E.le (E.key a) (E.key b)) := by
            have := hs'.pw
            rw [elemsC_append, elemsC_cons] at this
            exact (List.pairwise_append.1 (List.pairwise_append.1 this).2.1).1
          have hi : d.vals.getD i 0 ∈ d.vals := by rw [getD_lt q1]; exact List.getElem_mem q1
          have hle : E.le (E.key (d.vals.getD i 0)) (E.key x) := by
            rw [List.drop_eq_getElem_cons q1] at hx
            rcases List.mem_cons.1 hx with rfl | hx
            · rw [getD_lt q1]; exact O.refl (b3 _ (by simp)).2.2
            · rw [take_getD q1] at hsv
              exact (List.pairwise_cons.1 (List.pairwise_append.1 hsv).2.1).1 x hx
          exact O.trans hp (b3 _ hi).2.2 (b3 x (List.mem_of_mem_drop hx)).2.2 ((O.ge_iff (b3 _ hi).2.2 hp).1 q3) hle
        · exact h2 x hx (by simp)

/-- The rows of the bounding node that are not greater than the key. -/
theorem last_rows {k : Nat} (hk : t.height ≤ k) {node : Nat} (hx : searchRight E s key k s.root 0 = (node, .really)) :
    ∃ pre d post i, t.nodes = pre ++ d :: post ∧ node = d.id ∧ tnodeLast E s node key = some i ∧ i < d.vals.length ∧
      (∀ x ∈ elemsC pre ++ d.vals.take (i + 1), E.cmp (E.key x) key ≠ .gt) ∧ (∀ x ∈ d.vals.drop (i + 1) ++ elemsC post, ¬ E.cmp (E.key x) key ≠ .gt) := by
  obtain ⟨pre, d, post, e, rfl, h1, h2, h3, h4, h5⟩ := right_rows O hw hne hs hp hk hx
  have hd : d ∈ t.nodes := by simp [e]
  obtain ⟨_, _, _, i0⟩ := hw.rep.get hd
  have hs' : Sorted E P (elemsC (pre ++ d :: post)) := by rw [← e]; exact hs
  have hok' : ∀ e ∈ pre ++ d :: post, NOk E e := by rw [← e]; exact hw.nok
  obtain ⟨b1, b2, b3, b4, b5, b6⟩ := hs'.around O hok'
  have hlen := List.length_pos_iff.2 (hw.nok d hd).ne
  have hsv : d.vals.Pairwise (fun a b => E.le (E.key a) (E.key b)) := by
    have := hs'.pw
    rw [elemsC_append, elemsC_cons] at this
    exact (List.pairwise_append.1 (List.pairwise_append.1 this).2.1).1
  cases hf : tnodeLast E s d.id key with
  | none =>
    exfalso
    unfold tnodeLast at hf
    rw [i0.vals] at hf
    have h6 := lastScan_none hf 0 hlen
    have hh : d.vals.getD 0 0 = d.vals.headD 0 := by cases d.vals <;> rfl
    rw [hh, ← (hw.nok d hd).mn, O.gt_iff b5 hp] at h6
    exact (h3 rfl).2 h6
  | some i =>
    unfold tnodeLast at hf
    rw [i0.vals] at hf
    obtain ⟨q1, q2, q3⟩ := lastScan_spec hf
    refine ⟨pre, d, post, i, e, rfl, rfl, q1, ?_, ?_⟩
    · intro x hx
      rcases List.mem_append.1 hx with hx | hx
      · exact h2 x hx (by simp)
      · have hxm := List.mem_of_mem_take hx
        have hi : d.vals.getD i 0 ∈ d.vals := by rw [getD_lt q1]; exact List.getElem_mem q1
        have hle : E.le (E.key x) (E.key (d.vals.getD i 0)) := by
          rw [List.take_succ_eq_append_getElem q1, List.mem_append] at hx
          rcases hx with hx | hx
          · rw [take_getD q1] at hsv
            exact (List.pairwise_append.1 hsv).2.2 x hx _ (by simp)
          · have : x = d.vals[i] := by simpa using hx
            rw [getD_lt q1, ← this]
            exact O.refl (b3 x hxm).2.2
        exact O.trans (b3 x hxm).2.2 (b3 _ hi).2.2 hp hle q2
    · intro x hx
      rw [not_not]
      rcases List.mem_append.1 hx with hx | hx
      · obtain ⟨j, hj, rfl⟩ := List.mem_iff_getElem.1 hx
        rw [List.length_drop] at hj
        have := q3 (i + 1 + j) (by omega) (by omega)
        rw [getD_lt (by omega)] at this
        rw [List.getElem_drop]
        exact this
      · exact h1 x hx

theorem startPos_excl {k : Nat} (hk : t.height ≤ k) : ∃ x n, startPos E k s key false = some x ∧ StartAt t.nodes n x ∧ Splits (elems t) (fun r => E.cmp (E.key r) key ≠ .gt) n := by
  unfold startPos
  simp only [if_neg hill, Bool.false_eq_true, if_false]
  generalize hx : searchRight E s key k s.root 0 = x
  obtain ⟨node, bt⟩ := x
  cases bt with
  | really =>
    obtain ⟨pre, d, post, i, e, rfl, h1, h2, h3, h4⟩ := last_rows O hw hne hs hp hill hk hx
    have hd : d ∈ t.nodes := by simp [e]
    obtain ⟨_, _, _, i0⟩ := hw.rep.get hd
    have hel : elems t = elemsC pre ++ (d.vals ++ elemsC post) := by unfold elems; rw [e]; simp [elemsC]
    have hsp : Splits (elems t) (fun r => E.cmp (E.key r) key ≠ .gt) ((elemsC pre).length + (i + 1)) := by
      refine ⟨elemsC pre ++ d.vals.take (i + 1), d.vals.drop (i + 1) ++ elemsC post, by rw [hel, List.append_assoc, ← List.append_assoc (d.vals.take _), List.take_append_drop], by simp; omega, h3, h4⟩
    simp only [h1, Option.map_some, i0.vals]
    by_cases g : d.vals.length ≤ i + 1
    · rw [if_pos g, (hw.rep.links e).2]
      refine ⟨_, _, rfl, ?_, hsp⟩
      have : i + 1 = d.vals.length := by omega
      rw [this]
      exact startAt_next hw.nok e
    · rw [if_neg g]
      exact ⟨_, _, rfl, .inr ⟨pre, d, post, i + 1, e, rfl, by omega, rfl⟩, hsp⟩
  | deadLeft =>
    obtain ⟨pre, d, post, e, rfl, h1, h2, h3, h4, h5⟩ := right_rows O hw hne hs hp hk hx
    have hel : elems t = elemsC pre ++ (d.vals ++ elemsC post) := by unfold elems; rw [e]; simp [elemsC]
    have hlen := List.length_pos_iff.2 (hw.nok d (by simp [e])).ne
    refine ⟨_, _, rfl, .inr ⟨pre, d, post, 0, e, rfl, hlen, rfl⟩, elemsC pre, d.vals ++ elemsC post, hel, by simp, (h5 rfl).2, ?_⟩
    intro x hx
    rw [not_not]
    rcases List.mem_append.1 hx with hx | hx
    · exact (h5 rfl).1 x hx
    · exact h1 x hx
  | deadRight =>
    obtain ⟨pre, d, post, e, rfl, h1, h2, h3, h4, h5⟩ := right_rows O hw hne hs hp hk hx
    have hel : elems t = elemsC pre ++ (d.vals ++ elemsC post) := by unfold elems; rw [e]; simp [elemsC]
    simp only [(hw.rep.links e).2]
    refine ⟨_, _, rfl, startAt_next hw.nok e, elemsC pre ++ d.vals, elemsC post, by rw [hel, List.append_assoc], by simp, ?_, fun x hx => by rw [not_not]; exact h1 x hx⟩
    intro x hx
    rcases List.mem_append.1 hx with hx | hx
    · exact h2 x hx (by simp)
    · exact h4 rfl x hx

theorem endPos_incl {k : Nat} (hk : t.height ≤ k) : ∃ x n, endPos E k s key true = some x ∧ EndAt t.nodes n x ∧ Splits (elems t) (fun r => E.cmp (E.key r) key ≠ .gt) n := by
  unfold endPos
  simp only [if_neg hill, if_true]
  generalize hx : searchRight E s key k s.root 0 = x
  obtain ⟨node, bt⟩ := x
  cases bt with
  | really =>
    obtain ⟨pre, d, post, i, e, rfl, h1, h2, h3, h4⟩ := last_rows O hw hne hs hp hill hk hx
    have hel : elems t = elemsC pre ++ (d.vals ++ elemsC post) := by unfold elems; rw [e]; simp [elemsC]
    simp only [h1, Option.map_some]
    refine ⟨_, _, rfl, .inr ⟨pre, d, post, i, e, rfl, h2, rfl⟩, elemsC pre ++ d.vals.take (i + 1), d.vals.drop (i + 1) ++ elemsC post, by rw [hel, List.append_assoc, ← List.append_assoc (d.vals.take _), List.take_append_drop], by simp; omega, h3, h4⟩
  | deadLeft =>
    obtain ⟨pre, d, post, e, rfl, h1, h2, h3, h4, h5⟩ := right_rows O hw hne hs hp hk hx
    have hel : elems t = elemsC pre ++ (d.vals ++ elemsC post) := by unfold elems; rw [e]; simp [elemsC]
    refine ⟨_, _, rfl, endAt_prev hw e, elemsC pre, d.vals ++ elemsC post, hel, by simp, (h5 rfl).2, ?_⟩
    intro x hx
    rw [not_not]
    rcases List.mem_append.1 hx with hx | hx
    · exact (h5 rfl).1 x hx
    · exact h1 x hx
  | deadRight =>
    obtain ⟨pre, d, post, e, rfl, h1, h2, h3, h4, h5⟩ := right_rows O hw hne hs hp hk hx
    have hel : elems t = elemsC pre ++ (d.vals ++ elemsC post) := by unfold elems; rw [e]; simp [elemsC]
    have hd : d ∈ t.nodes := by simp [e]
    obtain ⟨_, _, _, i0⟩ := hw.rep.get hd
    have hlen := List.length_pos_iff.2 (hw.nok d hd).ne
    refine ⟨_, (elemsC pre ++ d.vals).length, rfl, .inr ⟨pre, d, post, d.vals.length - 1, e, ?_, by omega, by simp; omega⟩, elemsC pre ++ d.vals, elemsC post, by rw [hel, List.append_assoc], rfl, ?_, fun x hx => by rw [not_not]; exact h1 x hx⟩
    · rw [i0.vals]
      simp only [Prod.mk.injEq, true_and]
      omega
    · intro x hx
      rcases List.mem_append.1 hx with hx | hx
      · exact h2 x hx (by simp)
      · exact h4 rfl x hx

theorem endPos_excl {k : Nat} (hk : t.height ≤ k) : ∃ x n, endPos E k s key false = some x ∧ EndAt t.nodes n x ∧ Splits (elems t) (fun r => E.cmp (E.key r) key = .lt) n := by
  obtain ⟨y, n0, hy, _, hsp⟩ := startPos_incl O hw hne hs hp hill hk
  unfold startPos at hy
  unfold endPos
  simp only [if_neg hill, if_true, Bool.false_eq_true, if_false] at hy ⊢
  generalize hx : searchLeft E s key k s.root 0 = x at hy
  obtain ⟨node, bt⟩ := x
  obtain ⟨pre, d, post, e, rfl, h1, h2, h3, h4, h5⟩ := left_rows O hw hne hs hp hk hx
  have hd : d ∈ t.nodes := by simp [e]
  obtain ⟨_, _, _, i0⟩ := hw.rep.get hd
  have hel : elems t = elemsC pre ++ (d.vals ++ elemsC post) := by unfold elems; rw [e]; simp [elemsC]
  have hlen := List.length_pos_iff.2 (hw.nok d hd).ne
  cases bt with
  | deadLeft =>
    refine ⟨_, _, rfl, endAt_prev hw e, elemsC pre, d.vals ++ elemsC post, hel, by simp, h1, ?_⟩
    intro x hx
    rcases List.mem_append.1 hx with hx | hx
    · exact h4 rfl x hx
    · exact h2 x hx (by simp)
  | deadRight =>
    refine ⟨_, (elemsC pre ++ d.vals).length, rfl, .inr ⟨pre, d, post, d.vals.length - 1, e, ?_, by omega, by simp; omega⟩, elemsC pre ++ d.vals, elemsC post, by rw [hel, List.append_assoc], rfl, ?_, (h5 rfl).2⟩
    · rw [i0.vals]
      simp only [Prod.mk.injEq, true_and]
      omega
    · intro x hx
      rcases List.mem_append.1 hx with hx | hx
      · exact h1 x hx
      · exact (h5 rfl).1 x hx
  | really =>
    simp only at hy ⊢
    cases hf : tnodeFirst E s d.id key with
    | none => rw [hf] at hy; simp at hy
    | some i =>
      obtain ⟨q1, q2, q3⟩ := tnodeFirst_spec hf
      rw [i0.vals] at q1 q2 q3
      simp only [Option.map_some]
      -- the same split as for the inclusive start
      obtain ⟨x', n', hx', hst, hsp'⟩ := startPos_incl O hw hne hs hp hill hk
      unfold startPos at hx'
      simp only [if_neg hill, if_true, hx, hf, Option.map_some, Option.some.injEq] at hx'
      subst hx'
      have hn' : n' = (elemsC pre).length + i := by
        rcases hst with ⟨_, h0⟩ | ⟨pre', d', post', i', e', hx', _, hn⟩
        · exact absurd h0 (fun x => hw.rep.pos (List.mem_map.2 ⟨d, hd, x⟩))
        · simp only [Prod.mk.injEq] at hx'
          have hpre : pre' = pre := by
            have hnd := hw.rep.nodup
            unfold T.ids at hnd
            rw [e] at e' hnd
            exact split_unique hnd e' hx'.1
          rw [hn, hpre]; omega
      subst hn'
      by_cases g : i = 0
      · subst g
        rw [if_pos rfl]
        exact ⟨_, _, rfl, by simpa using endAt_prev hw e, hsp'⟩
      · rw [if_neg g]
        refine ⟨_, _, rfl, .inr ⟨pre, d, post, i - 1, e, ?_, by omega, by omega⟩, hsp'⟩
        simp only [Prod.mk.injEq, true_and]
        omega

end

/-! ## The range between two bounds -/

theorem split_tri {pre pre' post post' : List (D κ)} {d d' : D κ} (e : pre ++ d :: post = pre' ++ d' :: post') :
    (pre = pre' ∧ d = d' ∧ post = post') ∨ (∃ q, pre' = pre ++ d :: q ∧ post = q ++ d' :: post') ∨ (∃ q, pre = pre' ++ d' :: q) := by
  induction pre generalizing pre' with
  | nil =>
    cases pre' with
    | nil => simp at e; exact .inl ⟨rfl, e.1, e.2⟩
    | cons a q =>
      simp only [List.nil_append, List.cons_append, List.cons.injEq] at e
      obtain ⟨rfl, rfl⟩ := e
      exact .inr (.inl ⟨q, rfl, rfl⟩)
  | cons a q ih =>
    cases pre' with
    | nil =>
      simp only [List.nil_append, List.cons_append, List.cons.injEq] at e
      obtain ⟨rfl, rfl⟩ := e
      exact .inr (.inr ⟨q, rfl⟩)
    | cons b q' =>
      simp only [List.cons_append, List.cons.injEq] at e
      obtain ⟨rfl, e⟩ := e
      rcases ih e with ⟨rfl, rfl, rfl⟩ | ⟨x, rfl, rfl⟩ | ⟨x, rfl⟩
      · exact .inl ⟨rfl, rfl, rfl⟩
      · exact .inr (.inl ⟨x, rfl, rfl⟩)
      · exact .inr (.inr ⟨x, rfl⟩)

theorem elemsC_at {pre post : List (D κ)} {d : D κ} {i : Nat} (h : i < d.vals.length) :
    ∀ m, ((elemsC (pre ++ d :: post)).drop ((elemsC pre).length + i)).take (m + 1) =
      d.vals.getD i 0 :: ((elemsC (pre ++ d :: post)).drop ((elemsC pre).length + i + 1)).take m := by
  intro m
  have hl : (elemsC pre).length + i < (elemsC (pre ++ d :: post)).length := by simp [elemsC]; omega
  rw [List.drop_eq_getElem_cons hl, List.take_succ_cons]
  congr 1
  have : elemsC (pre ++ d :: post) = elemsC pre ++ (d.vals ++ elemsC post) := by simp [elemsC]
  simp only [this]
  rw [List.getElem_append_right (by omega), List.getElem_append_left (by omega), getD_lt h]
  congr 1
  omega

theorem rangeRows_res {E : Env κ} {s : St κ} {t : T κ} (hw : Whole E s t) : ∀ (m n1 n2 k : Nat) (r : Rng), StartAt t.nodes n1 (r.co, r.cs) → EndAt t.nodes n2 (r.eo, r.es) →
    n2 = n1 + m + 1 → m < k → rangeRows s k r = ((elems t).drop n1).take (m + 1) := by
  intro m
  induction m with
  | zero =>
    intro n1 n2 k r h1 h2 hn hk
    obtain ⟨k, rfl⟩ : ∃ j, k = j + 1 := ⟨k - 1, by omega⟩
    rcases h2 with ⟨h2, _⟩ | ⟨pre', d', post', j, e', hx', hj, hn2⟩
    · omega
    have htot : n2 ≤ (elemsC t.nodes).length := by rw [hn2, e']; simp [elemsC]; omega
    rcases h1 with ⟨h1, _⟩ | ⟨pre, d, post, i, e, hx, hi, hn1⟩
    · omega
    simp only [Prod.mk.injEq] at hx hx'
    have hd : d ∈ t.nodes := by simp [e]
    obtain ⟨_, _, _, i0⟩ := hw.rep.get hd
    have hd0 : d.id ≠ 0 := fun x => hw.rep.pos (List.mem_map.2 ⟨d, hd, x⟩)
    have e2 := e
    rw [e'] at e2
    rw [rangeRows, if_neg (by rw [hx.1]; exact hd0)]
    rcases split_tri e2.symm with ⟨rfl, rfl, rfl⟩ | ⟨q, rfl, rfl⟩ | ⟨q, rfl⟩
    · have hij : i = j := by omega
      have hn : nextPos s r = { r with co := 0 } := by
        unfold nextPos; rw [if_pos ⟨by rw [hx.1, hx'.1], by rw [hx.2, hx'.2, hij]⟩]
      have hz : rangeRows s k { r with co := 0 } = [] := by cases k <;> simp [rangeRows]
      rw [hn, hz]
      unfold elems
      have := elemsC_at (pre := pre) (post := post) hi 0
      rw [e, hn1]
      rw [show List.flatMap D.vals (pre ++ d :: post) = elemsC (pre ++ d :: post) from rfl, this]
      simp [rowAt, hx.1, hx.2, i0.vals]
    · rw [elemsC_append, elemsC_cons, List.length_append, List.length_append] at hn2
      omega
    · rw [elemsC_append, elemsC_cons, List.length_append, List.length_append] at hn1
      omega
  | succ m ih =>
    intro n1 n2 k r h1 h2 hn hk
    obtain ⟨k, rfl⟩ : ∃ j, k = j + 1 := ⟨k - 1, by omega⟩
    have h2' := h2
    rcases h2' with ⟨h2', _⟩ | ⟨pre', d', post', j, e', hx', hj, hn2⟩
    · omega
    have htot : n2 ≤ (elemsC t.nodes).length := by rw [hn2, e']; simp [elemsC]; omega
    rcases h1 with ⟨h1, _⟩ | ⟨pre, d, post, i, e, hx, hi, hn1⟩
    · omega
    simp only [Prod.mk.injEq] at hx hx'
    have hd : d ∈ t.nodes := by simp [e]
    obtain ⟨_, _, _, i0⟩ := hw.rep.get hd
    have hd0 : d.id ≠ 0 := fun x => hw.rep.pos (List.mem_map.2 ⟨d, hd, x⟩)
    have e2 := e
    rw [e'] at e2
    rw [rangeRows, if_neg (by rw [hx.1]; exact hd0)]
    have key : StartAt t.nodes (n1 + 1) ((nextPos s r).co, (nextPos s r).cs) ∧ (nextPos s r).eo = r.eo ∧ (nextPos s r).es = r.es := by
      have hcs : r.cs + 1 = ((i + 1 : Nat) : Int) := by rw [hx.2]; rfl
      rcases split_tri e2.symm with ⟨rfl, rfl, rfl⟩ | ⟨q, rfl, rfl⟩ | ⟨q, rfl⟩
      · have hij : i < j := by omega
        have hn : nextPos s r = { r with cs := ((i + 1 : Nat) : Int) } := by
          unfold nextPos
          rw [if_neg (by rw [hx.2, hx'.2]; omega)]
          simp only [hcs, hx.1, i0.vals]
          rw [if_neg (by omega)]
        rw [hn]
        exact ⟨.inr ⟨pre, d, post, i + 1, e, by simp [hx.1], by omega, by omega⟩, rfl, rfl⟩
      · have hid : d.id ≠ d'.id := by
          intro x
          have hnd := hw.rep.nodup
          unfold T.ids at hnd
          rw [e] at hnd
          simp [List.nodup_append, x] at hnd
        by_cases g : d.vals.length ≤ i + 1
        · have hn : nextPos s r = { r with co := headId (q ++ d' :: post'), cs := 0 } := by
            unfold nextPos
            rw [if_neg (by rw [hx.1, hx'.1]; exact fun h => hid h.1)]
            simp only [hcs, hx.1, hx'.1, i0.vals, Ne.symm hid, if_false, (hw.rep.links e).2]
            rw [if_pos (by omega)]
          rw [hn]
          refine ⟨?_, rfl, rfl⟩
          have : n1 + 1 = (elemsC pre).length + d.vals.length := by omega
          rw [this]
          exact startAt_next hw.nok e
        · have hn : nextPos s r = { r with cs := ((i + 1 : Nat) : Int) } := by
            unfold nextPos
            rw [if_neg (by rw [hx.1, hx'.1]; exact fun h => hid h.1)]
            simp only [hcs, hx.1, i0.vals]
            rw [if_neg (by omega)]
          rw [hn]
          exact ⟨.inr ⟨pre, d, _, i + 1, e, by simp [hx.1], by omega, by omega⟩, rfl, rfl⟩
      · exfalso
        rw [elemsC_append, elemsC_cons, List.length_append, List.length_append] at hn1
        omega
    rw [ih (n1 + 1) n2 k _ key.1 (by rw [key.2.1, key.2.2]; exact h2) (by omega) (by omega)]
    have := elemsC_at (pre := pre) (post := post) hi (m + 1)
    unfold elems
    rw [show List.flatMap D.vals t.nodes = elemsC t.nodes from rfl, e, hn1, this]
    simp [rowAt, hx.1, hx.2, i0.vals]

/-- Rows before the start of a range. -/
def Below [DecidableEq κ] (E : Env κ) (b : κ) (inc : Bool) (r : Nat) : Prop := b ≠ E.ill ∧ if inc then E.cmp (E.key r) b = .lt else E.cmp (E.key r) b ≠ .gt

/-- Rows not after the end of a range. -/
def Within [DecidableEq κ] (E : Env κ) (b : κ) (inc : Bool) (r : Nat) : Prop := b = E.ill ∨ if inc then E.cmp (E.key r) b ≠ .gt else E.cmp (E.key r) b = .lt

section
variable [DecidableEq κ] {E : Env κ} {P : κ → Prop} (O : Ord E P) {s : St κ} {t : T κ} (hw : Whole E s t) (hne : t ≠ .nil) (hs : Sorted E P (elems t))
include O hw hne hs

theorem startPos_res {b : κ} (hb : b = E.ill ∨ P b) {k : Nat} (hk : t.height ≤ k) (inc : Bool) :
    ∃ x n, startPos E k s b inc = some x ∧ StartAt t.nodes n x ∧ Splits (elems t) (Below E b inc) n := by
  by_cases hi : b = E.ill
  · refine ⟨(s.minN, 0), 0, by simp [startPos, hi], ?_, [], elems t, rfl, rfl, by simp, fun x _ h => h.1 hi⟩
    have e : s.minN = headId t.nodes := by rw [hw.rep.minN]; unfold T.ids headId; cases t.nodes <;> rfl
    rw [e]
    cases hn : t.nodes with
    | nil => exact absurd (nodes_eq_nil.1 hn) hne
    | cons d q => exact .inr ⟨[], d, q, 0, rfl, rfl, List.length_pos_iff.2 (hw.nok d (by simp [hn])).ne, rfl⟩
  · have hp := hb.resolve_left hi
    cases inc with
    | true =>
      obtain ⟨x, n, h1, h2, h3⟩ := startPos_incl O hw hne hs hp hi hk
      refine ⟨x, n, h1, h2, ?_⟩
      obtain ⟨A, B, q1, q2, q3, q4⟩ := h3
      exact ⟨A, B, q1, q2, fun x hx => ⟨hi, q3 x hx⟩, fun x hx h => q4 x hx h.2⟩
    | false =>
      obtain ⟨x, n, h1, h2, h3⟩ := startPos_excl O hw hne hs hp hi hk
      refine ⟨x, n, h1, h2, ?_⟩
      obtain ⟨A, B, q1, q2, q3, q4⟩ := h3
      exact ⟨A, B, q1, q2, fun x hx => ⟨hi, q3 x hx⟩, fun x hx h => q4 x hx h.2⟩

theorem endPos_res {b : κ} (hb : b = E.ill ∨ P b) {k : Nat} (hk : t.height ≤ k) (inc : Bool) :
    ∃ x n, endPos E k s b inc = some x ∧ EndAt t.nodes n x ∧ Splits (elems t) (Within E b inc) n := by
  by_cases hi : b = E.ill
  · refine ⟨lastSlot s s.maxN (-1), (elems t).length, by simp only [endPos, hi, if_true], ?_, elems t, [], by simp, rfl, fun x _ => .inl hi, by simp⟩
    rcases List.eq_nil_or_concat t.nodes with h | ⟨q, d, h⟩
    · exact absurd (nodes_eq_nil.1 h) hne
    · rw [List.concat_eq_append] at h
      have e : s.maxN = d.id := by rw [hw.rep.maxN]; unfold T.ids; rw [h]; simp
      have hd : d ∈ t.nodes := by simp [h]
      have hd0 : d.id ≠ 0 := fun x => hw.rep.pos (List.mem_map.2 ⟨d, hd, x⟩)
      obtain ⟨_, _, _, i0⟩ := hw.rep.get hd
      have hl := List.length_pos_iff.2 (hw.nok d hd).ne
      refine .inr ⟨q, d, [], d.vals.length - 1, h, ?_, by omega, ?_⟩
      · simp only [lastSlot, e, ne_eq, hd0, not_false_eq_true, if_true, i0.vals, Prod.mk.injEq, true_and]
        omega
      · unfold elems; rw [h]; simp [elemsC]; omega
  · have hp := hb.resolve_left hi
    cases inc with
    | true =>
      obtain ⟨x, n, h1, h2, h3⟩ := endPos_incl O hw hne hs hp hi hk
      refine ⟨x, n, h1, h2, ?_⟩
      obtain ⟨A, B, q1, q2, q3, q4⟩ := h3
      exact ⟨A, B, q1, q2, fun x hx => .inr (q3 x hx), fun x hx h => q4 x hx (h.resolve_left hi)⟩
    | false =>
      obtain ⟨x, n, h1, h2, h3⟩ := endPos_excl O hw hne hs hp hi hk
      refine ⟨x, n, h1, h2, ?_⟩
      obtain ⟨A, B, q1, q2, q3, q4⟩ := h3
      exact ⟨A, B, q1, q2, fun x hx => .inr (q3 x hx), fun x hx h => q4 x hx (h.resolve_left hi)⟩

end

theorem splits_mono {l : List Nat} {p q : Nat → Prop} {m n : Nat} (hp : Splits l p m) (hq : Splits l q n) (h : ∀ x ∈ l, p x → q x) : m ≤ n := by
  obtain ⟨A, B, rfl, rfl, a1, a2⟩ := hp
  obtain ⟨A', B', e, rfl, b1, b2⟩ := hq
  by_contra hc
  rcases List.append_eq_append_iff.1 e with ⟨C, h1, h2⟩ | ⟨C, h1, h2⟩
  · rw [h1] at hc; simp at hc
  · cases C with
    | nil => simp at h1; rw [h1] at hc; omega
    | cons c C =>
      refine b2 c (by rw [h2]; simp) (h c (by rw [h1]; simp) (a1 c (by rw [h1]; simp)))

theorem splits_filter {l : List Nat} {p q : Nat → Prop} [DecidablePred p] [DecidablePred q] {m n : Nat} (hp : Splits l p m) (hq : Splits l q n) (hmn : m ≤ n) :
    (l.drop m).take (n - m) = l.filter (fun x => decide (¬ p x) && decide (q x)) := by
  obtain ⟨A, B, rfl, rfl, a1, a2⟩ := hp
  obtain ⟨A', B', e, rfl, b1, b2⟩ := hq
  rcases List.append_eq_append_iff.1 e with ⟨C, h1, h2⟩ | ⟨C, h1, h2⟩
  · subst h1 h2
    have e1 : A.filter (fun x => decide (¬ p x) && decide (q x)) = [] := by
      rw [List.filter_eq_nil_iff]; intro x hx; simp [a1 x hx]
    have e2 : B'.filter (fun x => decide (¬ p x) && decide (q x)) = [] := by
      rw [List.filter_eq_nil_iff]; intro x hx; simp [b2 x hx]
    have e3 : C.filter (fun x => decide (¬ p x) && decide (q x)) = C := by
      rw [List.filter_eq_self]; intro x hx
      simp [a2 x (by simp [hx]), b1 x (by simp [hx])]
    rw [List.filter_append, List.filter_append, e1, e2, e3]
    simp
  · have hc : C = [] := by
      rw [h1, List.length_append] at hmn; exact List.length_eq_zero_iff.1 (by omega)
    subst hc
    simp only [List.append_nil, List.nil_append] at h1 h2
    subst h1 h2
    symm
    simp only [Nat.sub_self, List.take_zero]
    rw [List.filter_eq_nil_iff]
    intro x hx
    rcases List.mem_append.1 hx with hx | hx
    · simp [a1 x hx]
    · simp [b2 x hx]

open Classical in
/-- The rows of a range are the rows of the index between the bounds, in index order, unless the end comes before the start. -/
theorem findBounds_res [DecidableEq κ] {E : Env κ} {P : κ → Prop} (O : Ord E P) {s : St κ} {l : List Nat} (h : Index E P s l) {b1 b2 : κ} (h1 : b1 = E.ill ∨ P b1) (h2 : b2 = E.ill ∨ P b2)
    {i1 i2 : Bool} {k : Nat} (hk : fuel l.length ≤ k) (hle : ∀ x ∈ l, Below E b1 i1 x → Within E b2 i2 x) :
    ∃ r, findBounds E k s b1 b2 i1 i2 = some r ∧ rangeRows s k r = l.filter (fun x => decide (¬ Below E b1 i1 x) && decide (Within E b2 i2 x)) := by
  have hz : ∀ cs eo es, rangeRows s k ⟨0, cs, eo, es⟩ = [] := by intro cs eo es; cases k <;> simp [rangeRows]
  rcases h with ⟨he, rfl⟩ | ⟨t, hw, hne, hs, rfl⟩
  · obtain ⟨k, rfl⟩ : ∃ j, k = j + 1 := ⟨k - 1, by unfold fuel at hk; omega⟩
    have hcmp : ∀ {b : κ}, b = E.ill ∨ P b → b ≠ E.ill → E.cmp b E.ill = .lt ∨ E.cmp b E.ill = .gt := by
      intro b hb hi
      have := O.ill (hb.resolve_left hi)
      cases hc : E.cmp b E.ill with
      | lt => exact .inl rfl
      | gt => exact .inr rfl
      | eq => exact absurd hc this
    have hst : ∃ co, startPos E (k + 1) s b1 i1 = some (co, 0) ∧ (co = 0 ∨ co = s.root) := by
      unfold startPos
      by_cases hi : b1 = E.ill
      · rw [if_pos hi]; exact ⟨_, rfl, .inr he.minN⟩
      · rw [if_neg hi]
        cases i1 with
        | true =>
          rcases hcmp h1 hi with hc | hc
          · exact ⟨s.root, by simp [searchLeft, he.mn, he.mx, he.left, he.right, hc], .inr rfl⟩
          · exact ⟨0, by simp [searchLeft, he.mx, he.right, hc, he.succ], .inl rfl⟩
        | false =>
          rcases hcmp h1 hi with hc | hc
          · exact ⟨s.root, by simp [searchRight, he.mn, he.mx, he.left, he.right, hc], .inr rfl⟩
          · exact ⟨0, by simp [searchRight, he.mn, he.mx, he.right, hc, he.succ], .inl rfl⟩
    have hen : ∃ eo, endPos E (k + 1) s b2 i2 = some (eo, -1) ∧ (eo = 0 ∨ eo = s.root) := by
      unfold endPos
      by_cases hi : b2 = E.ill
      · rw [if_pos hi]; exact ⟨s.root, by simp [lastSlot, he.maxN, he.ne, he.vals], .inr rfl⟩
      · rw [if_neg hi]
        cases i2 with
        | true =>
          rcases hcmp h2 hi with hc | hc
          · exact ⟨0, by simp [searchRight, he.mn, he.left, hc, he.pred, lastSlot], .inl rfl⟩
          · exact ⟨s.root, by simp [searchRight, he.mn, he.mx, he.right, hc, he.vals], .inr rfl⟩
        | false =>
          rcases hcmp h2 hi with hc | hc
          · exact ⟨0, by simp [searchLeft, he.mn, he.mx, he.left, hc, he.pred, lastSlot], .inl rfl⟩
          · exact ⟨s.root, by simp [searchLeft, he.mx, he.right, hc, he.vals], .inr rfl⟩
    obtain ⟨co, hco, hc⟩ := hst
    obtain ⟨eo, heo, he'⟩ := hen
    unfold findBounds
    simp only [hco, heo, List.filter_nil]
    rcases hc with rfl | rfl
    · exact ⟨_, rfl, hz _ _ _⟩
    · rw [if_pos he.ne]
      rcases he' with rfl | rfl
      · rw [if_neg (fun h => he.ne h.1.symm)]
        exact ⟨_, rfl, hz _ _ _⟩
      · rw [if_pos ⟨rfl, by omega⟩]
        exact ⟨_, rfl, hz _ _ _⟩
  · have hn := nodes_length_le hw.nok
    have hh := height_le_nodes t
    obtain ⟨⟨co, cs⟩, n1, hco, hst, hsp1⟩ := startPos_res O hw hne hs h1 (k := k) (by unfold fuel at hk; omega) i1
    obtain ⟨⟨eo, es⟩, n2, heo, hen, hsp2⟩ := endPos_res O hw hne hs h2 (k := k) (by unfold fuel at hk; omega) i2
    have hmn := splits_mono hsp1 hsp2 hle
    rw [← splits_filter hsp1 hsp2 hmn]
    have hn2 : n2 ≤ (elems t).length := by obtain ⟨A, B, e, rfl, _⟩ := hsp2; rw [e]; simp
    unfold findBounds
    simp only [hco, heo]
    have hempty : n2 ≤ n1 → ∀ cs eo es, rangeRows s k ⟨0, cs, eo, es⟩ = ((elems t).drop n1).take (n2 - n1) := by
      intro h cs eo es; rw [hz, show n2 - n1 = 0 by omega]; simp
    by_cases hc0 : co = 0
    · subst hc0
      simp only [ne_eq, not_true_eq_false, if_false]
      refine ⟨_, rfl, hempty ?_ _ _ _⟩
      rcases hst with ⟨h, _⟩ | ⟨pre, d, post, i, e, hx, hi, hn1⟩
      · rw [h]; exact hn2
      · exact absurd (Prod.mk.injEq .. ▸ hx).1.symm (fun x => hw.rep.pos (List.mem_map.2 ⟨d, by simp [e], x⟩))
    · simp only [ne_eq, hc0, not_false_eq_true, if_true]
      rcases hst with ⟨_, h⟩ | ⟨pre, d, post, i, e, hx, hi, hn1⟩
      · exact absurd h hc0
      simp only [Prod.mk.injEq] at hx
      obtain ⟨rfl, rfl⟩ := hx
      have hd : d ∈ t.nodes := by simp [e]
      have hd0 : d.id ≠ 0 := hc0
      -- where the end is relative to the start
      rcases hen with ⟨h, h0⟩ | ⟨pre', d', post', j, e', hx', hj, hnn⟩
      · simp only at h0
        subst h0
        rw [if_neg (fun h => hc0 h.1.symm), if_pos rfl]
        exact ⟨_, rfl, hempty (by omega) _ _ _⟩
      · simp only [Prod.mk.injEq] at hx'
        obtain ⟨rfl, rfl⟩ := hx'
        have hd0' : d'.id ≠ 0 := fun x => hw.rep.pos (List.mem_map.2 ⟨d', by simp [e'], x⟩)
        have e2 := e
        rw [e'] at e2
        have hnd := hw.rep.nodup
        unfold T.ids at hnd
        rw [e] at hnd
        have hpred := (hw.rep.links e).1
        have main : n1 < n2 → ∃ r, some (⟨d.id, (i : Int), d'.id, (j : Int)⟩ : Rng) = some r ∧ rangeRows s k r = ((elems t).drop n1).take (n2 - n1) := by
          intro hlt
          refine ⟨_, rfl, ?_⟩
          obtain ⟨m, hm⟩ : ∃ m, n2 = n1 + m + 1 := ⟨n2 - n1 - 1, by omega⟩
          rw [rangeRows_res hw m n1 n2 k _ (.inr ⟨pre, d, post, i, e, rfl, hi, hn1⟩) (.inr ⟨pre', d', post', j, e', rfl, hj, hnn⟩) hm (by unfold fuel at hk; omega)]
          rw [show n2 - n1 = m + 1 by omega]
        rcases split_tri e2.symm with ⟨rfl, rfl, rfl⟩ | ⟨q, rfl, rfl⟩ | ⟨q, rfl⟩
        · by_cases g : (j : Int) < i
          · rw [if_pos ⟨rfl, g⟩]
            exact ⟨_, rfl, hempty (by omega) _ _ _⟩
          · rw [if_neg (fun h => g h.2), if_neg hd0]
            have hne2 : d.id ≠ (s.h d.id).pred := by
              rw [hpred]
              rcases List.eq_nil_or_concat pre with h | ⟨q, b, h⟩
              · subst h; exact hd0
              · rw [List.concat_eq_append] at h
                subst h
                rw [lastId_concat]
                intro x
                simp [List.nodup_append, ← x] at hnd
            rw [if_neg hne2]
            exact main (by omega)
        · have hid : d'.id ≠ d.id := by
            intro x
            simp [List.nodup_append, x] at hnd
          rw [if_neg (fun h => hid h.1), if_neg hd0']
          have hne2 : d'.id ≠ (s.h d.id).pred := by
            rw [hpred]
            rcases List.eq_nil_or_concat pre with h | ⟨q', b, h⟩
            · subst h; exact hd0'
            · rw [List.concat_eq_append] at h
              subst h
              rw [lastId_concat]
              intro x
              simp [List.nodup_append, ← x] at hnd
          rw [if_neg hne2]
          refine main ?_
          rw [elemsC_append, elemsC_cons, List.length_append, List.length_append] at hnn
          omega
        · have hid : d'.id ≠ d.id := by
            intro x
            simp [List.nodup_append, x] at hnd
          rw [if_neg (fun h => hid h.1), if_neg hd0']
          have hle2 : n2 ≤ n1 := by
            rw [elemsC_append, elemsC_cons, List.length_append, List.length_append] at hn1
            omega
          have hq : q = [] := by
            cases q with
            | nil => rfl
            | cons b q =>
              exfalso
              have hb := List.length_pos_iff.2 (hw.nok b (by rw [e]; simp)).ne
              rw [elemsC_append, elemsC_cons, elemsC_cons, List.length_append, List.length_append, List.length_append] at hn1
              omega
          subst hq
          rw [if_pos (by rw [hpred, lastId_concat])]
          exact ⟨_, rfl, hempty hle2 _ _ _⟩

end WG.TTree
