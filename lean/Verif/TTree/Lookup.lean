import Verif.TTree.Bounds
/-!
# Lookup
-/
namespace WG.TTree
variable {κ : Type}
open T

theorem find_append_none {p : Nat → Bool} {A B : List Nat} (h : ∀ x ∈ A, p x = false) : (A ++ B).find? p = B.find? p := by
  rw [List.find?_append, List.find?_eq_none.2 (by intro x hx; simp [h x hx])]
  rfl

theorem scanKey_res {E : Env κ} {P : κ → Prop} (O : Ord E P) {s : St κ} {t : T κ} {key : κ} (hw : Whole E s t) (hs : Sorted E P (elems t)) (hp : P key) :
    ∀ (post pre : List (D κ)) (d : D κ) (k : Nat), t.nodes = pre ++ d :: post → post.length < k →
    scanKey E s key k d.id = ((elemsC (d :: post)).find? (fun r => E.cmp (E.key r) key == .eq)).getD 0 := by
  intro post
  induction post with
  | nil =>
    intro pre d k e hk
    cases k with
    | zero => simp at hk
    | succ k =>
      obtain ⟨_, _, _, i0⟩ := hw.rep.get (d := d) (by simp [e])
      have hsucc : (s.h d.id).succ = 0 := (hw.rep.links e).2
      rw [scanKey]
      simp only [i0.vals, hsucc, if_true, elemsC, List.flatMap_cons, List.flatMap_nil, List.append_nil]
      cases d.vals.find? (fun r => E.cmp (E.key r) key == .eq) <;> rfl
  | cons b q ih =>
    intro pre d k e hk
    cases k with
    | zero => simp at hk
    | succ k =>
      obtain ⟨_, _, _, i0⟩ := hw.rep.get (d := d) (by simp [e])
      obtain ⟨_, _, _, ib⟩ := hw.rep.get (d := b) (by simp [e])
      have hsucc : (s.h d.id).succ = b.id := (hw.rep.links e).2
      have hb0 : b.id ≠ 0 := fun x => hw.rep.pos (List.mem_map.2 ⟨b, by simp [e], x⟩)
      rw [scanKey]
      simp only [i0.vals, hsucc, hb0, if_false, ib.mn]
      rw [elemsC_cons, List.find?_append]
      cases hf : d.vals.find? (fun r => E.cmp (E.key r) key == .eq) with
      | some i => rfl
      | none =>
        simp only [Option.none_or]
        have e' : t.nodes = (pre ++ [d]) ++ b :: q := by simp [e]
        by_cases g : E.cmp b.mn key = .gt
        · rw [if_pos g]
          have hs' : Sorted E P (elemsC ((pre ++ [d]) ++ b :: q)) := by rw [← e']; exact hs
          have hok : ∀ x ∈ (pre ++ [d]) ++ b :: q, NOk E x := by rw [← e']; exact hw.nok
          rw [List.find?_eq_none.2]
          · rfl
          · intro x hx
            obtain ⟨q1, q2, q3⟩ := from_mn O hs' hok hx
            have : E.cmp (E.key x) key = .gt := by
              rw [O.gt_iff q3 hp]
              exact O.lt_le hp q2 q3 ((O.gt_iff q2 hp).1 g) q1
            simp [this]
        · rw [if_neg g]
          exact ih (pre ++ [d]) b k e' (by simp at hk; omega)

theorem searchIndex_res {E : Env κ} {P : κ → Prop} (O : Ord E P) {s : St κ} {l : List Nat} (h : Index E P s l) {key : κ} (hp : P key) {k : Nat} (hk : fuel l.length ≤ k) :
    searchIndex E k s key = (((l.find? (fun r => E.cmp (E.key r) key == .eq)).getD 0 : Nat) : Int) := by
  rcases h with ⟨he, rfl⟩ | ⟨t, hw, hne, hs, rfl⟩
  · obtain ⟨k, rfl⟩ : ∃ j, k = j + 1 := ⟨k - 1, by unfold fuel at hk; omega⟩
    have := O.ill hp
    unfold searchIndex
    rw [if_neg he.ne]
    simp only [searchLeft, he.mn, he.mx, he.left, he.right]
    cases hc : E.cmp key E.ill with
    | lt => simp
    | eq => exact absurd hc this
    | gt => simp
  · have hn := nodes_length_le hw.nok
    have hh := height_le_nodes t
    have hr0 : s.root ≠ 0 := by
      rw [hw.rep.root]; intro e; exact hw.rep.pos (e ▸ rid_mem hne)
    unfold searchIndex
    rw [if_neg hr0]
    generalize hx : searchLeft E s key k s.root 0 = x
    obtain ⟨node, bt⟩ := x
    obtain ⟨pre, d, post, e, rfl, h1, h2, h3, h4, h5⟩ := left_rows O hw hne hs hp (by unfold fuel at hk; omega) hx
    have hel : elems t = elemsC pre ++ (d.vals ++ elemsC post) := by unfold elems; rw [e]; simp [elemsC]
    rw [hel, find_append_none (by intro x hx; simp [h1 x hx])]
    cases bt with
    | really =>
      simp only
      rw [scanKey_res O hw hs hp post pre d k e (by rw [e] at hn; simp at hn; unfold fuel at hk; omega), elemsC_cons]
    | deadLeft =>
      -- the key is below this node and above the ones before
      have hs' : Sorted E P (elemsC (pre ++ d :: post)) := by rw [← e]; exact hs
      have hok : ∀ x ∈ pre ++ d :: post, NOk E x := by rw [← e]; exact hw.nok
      have hns : NSorted E P t.nodes := nsorted O hs hw.nok
      have hsl := searchLeft_res O hp t [] k (by unfold fuel at hk; omega) hne hw.rep hns (by simp [preN]) (by simp [postN])
      rw [show headId (postN ([] : Ctx κ)) = 0 from rfl, ← hw.rep.root, hx] at hsl
      obtain ⟨pre', d', post', hnodes, hid, _, hb⟩ := hsl
      simp only [plug] at hnodes hid
      have hnd := hw.rep.nodup
      unfold T.ids at hnd
      rw [e] at hnodes hnd
      have hpre := split_unique hnd hnodes hid
      subst hpre
      have := List.append_cancel_left hnodes
      simp only [List.cons.injEq] at this
      obtain ⟨rfl, rfl⟩ := this
      rw [List.find?_eq_none.2]
      · rfl
      · intro x hx
        obtain ⟨q1, q2, q3⟩ := from_mn O hs' hok (x := x) (by rw [elemsC_cons]; exact hx)
        have : E.cmp (E.key x) key = .gt := by
          rw [O.gt_iff q3 hp]
          exact O.lt_le hp q2 q3 hb.1 q1
        simp [this]
    | deadRight =>
      have hs' : Sorted E P (elemsC (pre ++ d :: post)) := by rw [← e]; exact hs
      have hok : ∀ x ∈ pre ++ d :: post, NOk E x := by rw [← e]; exact hw.nok
      have hns : NSorted E P t.nodes := nsorted O hs hw.nok
      have hsl := searchLeft_res O hp t [] k (by unfold fuel at hk; omega) hne hw.rep hns (by simp [preN]) (by simp [postN])
      rw [show headId (postN ([] : Ctx κ)) = 0 from rfl, ← hw.rep.root, hx] at hsl
      obtain ⟨pre', d', post', hnodes, hid, _, hb⟩ := hsl
      simp only [plug] at hnodes hid
      have hnd := hw.rep.nodup
      unfold T.ids at hnd
      rw [e] at hnodes hnd
      have hpre := split_unique hnd hnodes hid
      subst hpre
      have := List.append_cancel_left hnodes
      simp only [List.cons.injEq] at this
      obtain ⟨rfl, rfl⟩ := this
      rw [find_append_none (by intro x hx; simp [(h5 rfl).1 x hx]), List.find?_eq_none.2]
      · rfl
      · intro x hx
        cases post with
        | nil => simp [elemsC] at hx
        | cons b q =>
          have h2' : Sorted E P (elemsC ((pre' ++ [d]) ++ b :: q)) := by simpa using hs'
          obtain ⟨q1, q2, q3⟩ := from_mn O h2' (by simpa using hok) hx
          have : E.cmp (E.key x) key = .gt := by
            rw [O.gt_iff q3 hp]
            exact O.lt_le hp q2 q3 (hb.2.1 b (by simp)) q1
          simp [this]

/-! ## Positions as walks -/

theorem dropWhile_split {p : Nat → Bool} {A B : List Nat} (hA : ∀ x ∈ A, p x = true) (hB : ∀ x ∈ B, p x = false) : (A ++ B).dropWhile p = B := by
  rw [List.dropWhile_append_of_pos hA]
  cases B with
  | nil => rfl
  | cons b B => rw [List.dropWhile_cons_of_neg]; simp [hB b (by simp)]

theorem startAt_walk {E : Env κ} {s : St κ} {t : T κ} (hw : Whole E s t) {n : Nat} {x : Nat × Int} (h : StartAt t.nodes n x) {k : Nat} (hk : t.nodes.length < k) :
    walkFrom s k x = (elems t).drop n := by
  rcases h with ⟨h1, h2⟩ | ⟨pre, d, post, i, e, rfl, hi, rfl⟩
  · rw [walkFrom, if_pos h2, h1]; unfold elems elemsC; simp
  · obtain ⟨_, _, _, i0⟩ := hw.rep.get (d := d) (by simp [e])
    have hd0 : d.id ≠ 0 := fun x => hw.rep.pos (List.mem_map.2 ⟨d, by simp [e], x⟩)
    have hpost := walk_suffix hw.rep post (pre ++ [d]) k (by simp [e]) (by rw [e] at hk; simp at hk; omega)
    rw [walkFrom, if_neg hd0]
    simp only [(hw.rep.links e).2, i0.vals, Int.toNat_natCast, hpost]
    unfold elems
    rw [e, show List.flatMap D.vals (pre ++ d :: post) = elemsC pre ++ (d.vals ++ elemsC post) by simp [elemsC], List.drop_append, List.drop_append_of_le_length (by omega)]
    simp

theorem endAt_walk {E : Env κ} {s : St κ} {t : T κ} (hw : Whole E s t) {n : Nat} {x : Nat × Int} (h : EndAt t.nodes n x) {k : Nat} (hk : t.nodes.length < k) :
    walkBackFrom s k x = ((elems t).take n).reverse := by
  rcases h with ⟨h1, h2⟩ | ⟨pre, d, post, i, e, rfl, hi, rfl⟩
  · rw [walkBackFrom, if_pos h2, h1]; simp
  · obtain ⟨_, _, _, i0⟩ := hw.rep.get (d := d) (by simp [e])
    have hd0 : d.id ≠ 0 := fun x => hw.rep.pos (List.mem_map.2 ⟨d, by simp [e], x⟩)
    have hpre := walkBack_prefix hw.rep _ pre (d :: post) k rfl e (by rw [e] at hk; simp at hk; omega)
    rw [walkBackFrom, if_neg hd0]
    simp only [(hw.rep.links e).1, i0.vals, hpre]
    have hi' : ((i : Int) + 1).toNat = i + 1 := by omega
    rw [hi', ← List.reverse_append]
    congr 1
    unfold elems
    rw [e, show List.flatMap D.vals (pre ++ d :: post) = elemsC pre ++ (d.vals ++ elemsC post) by simp [elemsC], Nat.add_assoc, List.take_length_add_append, List.take_append_of_le_length (by omega)]

theorem splits_drop {l : List Nat} {p : Nat → Prop} [DecidablePred p] {n : Nat} (h : Splits l p n) : l.drop n = l.dropWhile (fun x => decide (p x)) := by
  obtain ⟨A, B, rfl, rfl, h1, h2⟩ := h
  rw [dropWhile_split (by intro x hx; simpa using h1 x hx) (by intro x hx; simpa using h2 x hx)]
  simp

theorem splits_take {l : List Nat} {p : Nat → Prop} [DecidablePred p] {n : Nat} (h : Splits l p n) : (l.take n).reverse = l.reverse.dropWhile (fun x => decide (¬ p x)) := by
  obtain ⟨A, B, rfl, rfl, h1, h2⟩ := h
  rw [List.reverse_append, dropWhile_split (by intro x hx; simpa using h2 x (by simpa using hx)) (by intro x hx; simpa using h1 x (by simpa using hx))]
  simp

end WG.TTree
