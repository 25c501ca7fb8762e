import Verif.Segment.Spec
import Verif.Varlen.Props
import Verif.Fixlen.Props
/-! # The areas of a segment do not interfere -/
namespace WG.Segment
open WG.Varlen (Sub upd allocChunk)

def Area.subs : Area → List Sub
  | .var _ s => s
  | .fix _ _ s => s

/-- One area, seen alone, is in a reachable state with the objects `Li`. -/
def AInv (mem : Nat → Nat) (free size : Nat) : Area → (Nat → Option Nat) → Prop
  | .var fb subs, Li => Varlen.Reach ⟨mem, fb, subs, free, size⟩ Li
  | .fix obj fl subs, Li => ∃ U, Fixlen.Reach ⟨mem, obj, fl, subs, free, size⟩ U ∧ ∀ a n, Li a = some n ↔ U a ∧ n = obj / 8

structure Inv (hdr : Nat) (db : DB) (L : Live) : Prop where
  seg : 0 < hdr ∧ hdr ≤ db.free ∧ db.free % 8 = 0 ∧ db.free ≤ db.size ∧ db.size ≤ 2^40
  area : ∀ (i : Nat) (A : Area), db.areas[i]? = some A → AInv db.mem db.free db.size A (L i)
  noArea : ∀ i : Nat, db.areas[i]? = none → ∀ a, L i a = none
  range : ∀ (i : Nat) (A : Area), db.areas[i]? = some A → ∀ s ∈ A.subs, hdr ≤ s.aoff ∧ s.aoff + s.asize ≤ db.free
  disj : ∀ (i j : Nat) (A B : Area), i ≠ j → db.areas[i]? = some A → db.areas[j]? = some B → ∀ s ∈ A.subs, ∀ t ∈ B.subs, Apart s.aoff s.asize t.aoff t.asize
  arr : ∀ p ∈ db.arrays, p.1 % 8 = 0 ∧ hdr ≤ p.1 ∧ p.1 + 8 * p.2 ≤ db.free
  arrArea : ∀ p ∈ db.arrays, ∀ (i : Nat) (A : Area), db.areas[i]? = some A → ∀ s ∈ A.subs, Apart p.1 (8 * p.2) s.aoff s.asize
  arrPw : db.arrays.Pairwise fun p q => Apart p.1 (8 * p.2) q.1 (8 * q.2)

theorem Apart.symm {a n b m : Nat} (h : Apart a n b m) : Apart b m a n := by unfold Apart at *; omega

/-- `x` belongs to a subarea. -/
def InSubs (subs : List Sub) (x : Nat) : Prop := ∃ s ∈ subs, s.aoff ≤ x ∧ x < s.aoff + s.asize

/-- The rest of the segment may change anything outside an area. -/
theorem AInv.others {mem mem' : Nat → Nat} {free free' size : Nat} {A : Area} {Li : Nat → Option Nat} (h : AInv mem free size A Li)
    (h1 : free ≤ free') (h2 : free' % 8 = 0) (h3 : free' ≤ size) (h4 : ∀ x, InSubs A.subs x → mem' x = mem x) : AInv mem' free' size A Li := by
  cases A with
  | var fb subs => exact Varlen.Reach.others (st := ⟨mem, fb, subs, free, size⟩) h h1 h2 h3 (fun x hx => h4 x hx)
  | fix obj fl subs =>
    obtain ⟨U, hU, hl⟩ := h
    exact ⟨U, Fixlen.Reach.others (st := ⟨mem, obj, fl, subs, free, size⟩) hU h1 h2 h3 (fun x hx => h4 x hx), hl⟩

theorem get_set {α : Type} {l : List α} {i j : Nat} {a b : α} (h : (l.set i a)[j]? = some b) (hi : i < l.length) :
    (j = i ∧ b = a) ∨ (j ≠ i ∧ l[j]? = some b) := by
  by_cases e : j = i
  · subst e; rw [List.getElem?_set_self hi] at h; injection h with h; exact .inl ⟨rfl, h.symm⟩
  · rw [List.getElem?_set_ne (Ne.symm e)] at h; exact .inr ⟨e, h⟩

/-- A step of area `i` that keeps to the area and to new chunks. -/
theorem Inv.step {hdr : Nat} {db : DB} {L : Live} (h : Inv hdr db L) {i : Nat} {A A' : Area} (hA : db.areas[i]? = some A)
    {mem' : Nat → Nat} {free' : Nat} {Li : Nat → Option Nat} (hf : db.free ≤ free') (h8 : free' % 8 = 0) (hs : free' ≤ db.size)
    (hm : ∀ x, x < db.free → ¬ InSubs A.subs x → mem' x = db.mem x) (hi : AInv mem' free' db.size A' Li)
    (hn : ∀ s ∈ A'.subs, s ∈ A.subs ∨ db.free ≤ s.aoff) (he : ∀ s ∈ A'.subs, s.aoff + s.asize ≤ free') :
    Inv hdr { db with mem := mem', free := free', areas := db.areas.set i A' } (fun j => if j = i then Li else L j) := by
  have hil : i < db.areas.length := by
    rw [List.getElem?_eq_some_iff] at hA; exact hA.1
  obtain ⟨s1, s2, s3, s4, s5⟩ := h.seg
  have other : ∀ j B, j ≠ i → db.areas[j]? = some B → ∀ x, InSubs B.subs x → mem' x = db.mem x := by
    intro j B hj hB x ⟨s, hs, h1, h2⟩
    refine hm x (by have := (h.range j B hB s hs).2; omega) ?_
    rintro ⟨t, ht, h3, h4⟩
    have := h.disj j i B A hj hB hA s hs t ht
    unfold Apart at this; omega
  refine ⟨⟨s1, by simp only; omega, h8, hs, s5⟩, ?_, ?_, ?_, ?_, ?_, ?_, h.arrPw⟩
  · intro j B hB
    rcases get_set hB hil with ⟨rfl, rfl⟩ | ⟨hj, hB'⟩
    · simpa using hi
    · simp only [hj, if_false]
      exact (h.area j B hB').others hf h8 hs (other j B hj hB')
  · intro j hj a
    simp only [List.getElem?_eq_none_iff, List.length_set] at hj
    have hji : j ≠ i := by omega
    simp only [hji, if_false]
    exact h.noArea j (by rw [List.getElem?_eq_none_iff]; exact hj) a
  · intro j B hB s hs
    rcases get_set hB hil with ⟨rfl, rfl⟩ | ⟨hj, hB'⟩
    · rcases hn s hs with hold | hnew
      · exact ⟨(h.range j A hA s hold).1, he s hs⟩
      · exact ⟨by omega, he s hs⟩
    · have := h.range j B hB' s hs; exact ⟨this.1, by simp only; omega⟩
  · have key : ∀ j B, j ≠ i → db.areas[j]? = some B → ∀ s ∈ A'.subs, ∀ t ∈ B.subs, Apart s.aoff s.asize t.aoff t.asize := by
      intro j B hj hB s hs t ht
      rcases hn s hs with hold | hnew
      · exact h.disj i j A B (Ne.symm hj) hA hB s hold t ht
      · have := (h.range j B hB t ht).2
        exact .inr (by omega)
    intro j k B C hjk hB hC s hs t ht
    rcases get_set hB hil with ⟨rfl, rfl⟩ | ⟨hj, hB'⟩ <;> rcases get_set hC hil with ⟨rfl, rfl⟩ | ⟨hk, hC'⟩
    · exact absurd rfl hjk
    · exact key k C hk hC' s hs t ht
    · exact (key j B hj hB' t ht s hs).symm
    · exact h.disj j k B C hjk hB' hC' s hs t ht
  · intro p hp
    have := h.arr p hp; exact ⟨this.1, this.2.1, by simp only; omega⟩
  · intro p hp j B hB s hs
    rcases get_set hB hil with ⟨rfl, rfl⟩ | ⟨hj, hB'⟩
    · rcases hn s hs with hold | hnew
      · exact h.arrArea p hp j A hA s hold
      · have := (h.arr p hp).2.2; exact .inl (by omega)
    · exact h.arrArea p hp j B hB' s hs

/-- A new area. -/
theorem Inv.push {hdr : Nat} {db : DB} {L : Live} (h : Inv hdr db L) {A' : Area} {mem' : Nat → Nat} {free' : Nat} (hf : db.free ≤ free')
    (h8 : free' % 8 = 0) (hs : free' ≤ db.size) (hm : ∀ x, x < db.free → mem' x = db.mem x)
    (hi : AInv mem' free' db.size A' (fun _ => none)) (hn : ∀ s ∈ A'.subs, db.free ≤ s.aoff ∧ s.aoff + s.asize ≤ free') :
    Inv hdr { db with mem := mem', free := free', areas := db.areas ++ [A'] } L := by
  obtain ⟨s1, s2, s3, s4, s5⟩ := h.seg
  have get : ∀ {j : Nat} {B : Area}, (db.areas ++ [A'])[j]? = some B → (j = db.areas.length ∧ B = A') ∨ (db.areas[j]? = some B) := by
    intro j B hB
    by_cases hj : j < db.areas.length
    · rw [List.getElem?_append_left hj] at hB; exact .inr hB
    · rw [List.getElem?_append_right (by omega)] at hB
      cases hk : j - db.areas.length with
      | zero => rw [hk] at hB; simp at hB; exact .inl ⟨by omega, hB.symm⟩
      | succ k => rw [hk] at hB; simp at hB
  refine ⟨⟨s1, by simp only; omega, h8, hs, s5⟩, ?_, ?_, ?_, ?_, ?_, ?_, h.arrPw⟩
  · intro j B hB
    rcases get hB with ⟨rfl, rfl⟩ | hB'
    · have e : L db.areas.length = fun _ => none := funext (h.noArea _ (by simp))
      rw [e]; exact hi
    · refine (h.area j B hB').others hf h8 hs ?_
      intro x ⟨s, hs, h1, h2⟩
      exact hm x (by have := (h.range j B hB' s hs).2; omega)
  · intro j hj a
    refine h.noArea j ?_ a
    rw [List.getElem?_eq_none_iff] at hj ⊢
    simp only [List.length_append, List.length_singleton] at hj
    omega
  · intro j B hB s hs
    rcases get hB with ⟨rfl, rfl⟩ | hB'
    · have := hn s hs; exact ⟨by omega, this.2⟩
    · have := h.range j B hB' s hs; exact ⟨this.1, by simp only; omega⟩
  · intro j k B C hjk hB hC s hs t ht
    rcases get hB with ⟨rfl, rfl⟩ | hB' <;> rcases get hC with ⟨rfl, rfl⟩ | hC'
    · exact absurd rfl hjk
    · have := (h.range k C hC' t ht).2; have := (hn s hs).1; exact .inr (by omega)
    · have := (h.range j B hB' s hs).2; have := (hn t ht).1; exact .inl (by omega)
    · exact h.disj j k B C hjk hB' hC' s hs t ht
  · intro p hp
    have := h.arr p hp; exact ⟨this.1, this.2.1, by simp only; omega⟩
  · intro p hp j B hB s hs
    rcases get hB with ⟨rfl, rfl⟩ | hB'
    · have := (h.arr p hp).2.2; have := (hn s hs).1; exact .inl (by omega)
    · exact h.arrArea p hp j B hB' s hs

/-- A new array in a new chunk. -/
theorem Inv.array {hdr : Nat} {db : DB} {L : Live} (h : Inv hdr db L) {mem' : Nat → Nat} {free' s n : Nat} (hf : db.free ≤ s)
    (h8 : free' % 8 = 0) (hs8 : s % 8 = 0) (he : s + 8 * n ≤ free') (hs : free' ≤ db.size) (hm : ∀ x, x < db.free → mem' x = db.mem x) :
    Inv hdr { db with mem := mem', free := free', arrays := db.arrays ++ [(s, n)] } L := by
  obtain ⟨s1, s2, s3, s4, s5⟩ := h.seg
  refine ⟨⟨s1, by simp only; omega, h8, hs, s5⟩, ?_, h.noArea, ?_, h.disj, ?_, ?_, ?_⟩
  · intro j B hB
    refine (h.area j B hB).others (by simp only; omega) h8 hs ?_
    intro x ⟨t, ht, h1, h2⟩
    exact hm x (by have := (h.range j B hB t ht).2; omega)
  · intro j B hB t ht
    have := h.range j B hB t ht; exact ⟨this.1, by simp only; omega⟩
  · intro p hp
    rcases List.mem_append.1 hp with hp | hp
    · have := h.arr p hp; exact ⟨this.1, this.2.1, by simp only; omega⟩
    · simp only [List.mem_singleton] at hp; subst hp
      exact ⟨hs8, by simp only; omega, he⟩
  · intro p hp j B hB t ht
    rcases List.mem_append.1 hp with hp | hp
    · exact h.arrArea p hp j B hB t ht
    · simp only [List.mem_singleton] at hp; subst hp
      have := (h.range j B hB t ht).2; exact .inr (by simp only; omega)
  · rw [List.pairwise_append]
    refine ⟨h.arrPw, by simp, ?_⟩
    intro p hp q hq
    simp only [List.mem_singleton] at hq; subst hq
    have := (h.arr p hp).2.2; exact .inl (by simp only; omega)

end WG.Segment
