import Verif.Varlen.Model
import Mathlib.Tactic.SplitIfs
/-!
# Allocator invariant

A ghost map gives the block (size and kind) starting at each address and the contents of each free list. Blocks of
kind `hole` occur only while an operation is under way: the allocator has no claim about their contents.
-/
namespace WG.Varlen

inductive Kind
  | used (w : Nat)   -- live object, `w` bytes requested
  | free
  | dv
  | hole
deriving DecidableEq

structure Blk where
  size : Nat
  kind : Kind
deriving DecidableEq

structure G where
  blk : Nat → Option Blk
  ch : Nat → List Nat

def Sub.lo (s : Sub) : Nat := s.aoff + 32
def Sub.hi (s : Sub) : Nat := s.aoff + s.asize - 32

/-- Size of the block of an object of `w` bytes. -/
def objSize (w : Nat) : Nat := max 32 w

structure Geo (subs : List Sub) (B : Nat → Option Blk) : Prop where
  subs_al : ∀ s ∈ subs, s.aoff % 8 = 0 ∧ 0 < s.aoff ∧ s.asize % 8 = 0 ∧ 128 ≤ s.asize
  subs_pw : subs.Pairwise (fun s t => s.aoff + s.asize ≤ t.aoff)
  al : ∀ a b, B a = some b → a % 8 = 0 ∧ b.size % 8 = 0 ∧ 32 ≤ b.size
  inn : ∀ a b, B a = some b → ∃ s ∈ subs, s.lo ≤ a ∧ a + b.size ≤ s.hi
  next : ∀ a b, B a = some b → (∃ s ∈ subs, a + b.size = s.hi) ∨ (∃ c, B (a + b.size) = some c)
  first : ∀ s ∈ subs, ∃ c, B s.lo = some c
  disj : ∀ a b c d, B a = some b → B c = some d → a < c → a + b.size ≤ c

/-- A doubly linked free list threaded through memory. -/
def DL (mem : Nat → Nat) : Nat → List Nat → Prop
  | _, [] => True
  | p, a :: l => mem (a + 16) = p ∧ mem (a + 8) = l.headD 0 ∧ DL mem a l

structure Core (subs : List Sub) (mem : Nat → Nat) (B : Nat → Option Blk) : Prop where
  marker : ∀ s ∈ subs, mem s.aoff = 35 ∧ mem s.hi = 35
  used : ∀ a n w, B a = some ⟨n, .used w⟩ → w % 8 = 0 ∧ n = objSize w ∧ (mem a = w ∨ mem a = w + 2)
  flag_up : ∀ a n m w, B a = some ⟨n, .free⟩ → B (a + n) = some ⟨m, .used w⟩ → mem (a + n) = w + 2
  flag_dn : ∀ c m w, B c = some ⟨m, .used w⟩ → mem c = w + 2 →
    ∃ a n, (B a = some ⟨n, .free⟩ ∨ B a = some ⟨n, .hole⟩) ∧ a + n = c
  free : ∀ a n, B a = some ⟨n, .free⟩ → mem a = n + 1 ∧ mem (a + n - 8) = n + 1
  dv : ∀ a n, B a = some ⟨n, .dv⟩ → mem a = n + 3 ∧ mem (a + 8) = 1
  adj : ∀ a b c, B a = some b → B (a + b.size) = some c → b.kind = .free ∨ b.kind = .dv →
    c.kind = .free ∨ c.kind = .dv → False

structure Cont (subs : List Sub) (mem fb : Nat → Nat) (g : G) : Prop extends Core subs mem g.blk where
  list : ∀ i, i < 288 → fb i = (g.ch i).headD 0 ∧ DL mem (bkt i) (g.ch i) ∧ (g.ch i).Nodup
  mem_ch : ∀ i, i < 288 → ∀ a, a ∈ g.ch i ↔ ∃ n, g.blk a = some ⟨n, .free⟩ ∧ bix n = i

structure Inv (st : St) (g : G) : Prop where
  geo : Geo st.subs g.blk
  cont : Cont st.subs st.mem st.fb g
  chunk : ∀ s ∈ st.subs, s.off ≤ s.aoff ∧ s.aoff + s.asize ≤ s.off + s.size ∧ s.off + s.size ≤ st.segFree ∧ s.size < 2^40
  segAl : st.segFree % 8 = 0 ∧ 0 < st.segFree ∧ st.segFree ≤ st.segSize ∧ st.segSize ≤ 2^40

/-- The designated victim recorded in the header is the victim block. -/
def DvOK (st : St) (g : G) : Prop :=
  (st.fb DV = 0 ∧ st.fb DVSIZE = 0 ∧ ∀ a n, g.blk a ≠ some ⟨n, .dv⟩) ∨
  (g.blk (st.fb DV) = some ⟨st.fb DVSIZE, .dv⟩ ∧ ∀ a n, g.blk a = some ⟨n, .dv⟩ → a = st.fb DV)

def NoHole (g : G) : Prop := ∀ a n, g.blk a ≠ some ⟨n, .hole⟩

/-! ## Elementary facts -/

theorem bkt_def (i : Nat) : bkt i = 8 * i := rfl

theorem bucketLoop_spec (size : Nat) : ∀ n i, 256 * 2^i ≤ size → size < 256 * 2^(i + n) →
    ∃ k, i ≤ k ∧ k < i + n ∧ bucketLoop size n i (512 * 2^i) = some (256 + k) ∧ 256 * 2^k ≤ size ∧ size < 512 * 2^k := by
  intro n
  induction n with
  | zero => intro i h1 h2; simp only [Nat.add_zero] at h2; omega
  | succ n ih =>
    intro i h1 h2
    unfold bucketLoop
    by_cases h : size < 512 * 2^i
    · rw [if_pos h]; exact ⟨i, by omega, by omega, rfl, h1, h⟩
    · rw [if_neg h]
      have e : 512 * 2^i * 2 = 512 * 2^(i+1) := by rw [Nat.pow_succ]; omega
      have e' : 256 * 2^(i+1) = 512 * 2^i := by rw [Nat.pow_succ]; omega
      have e2 : i + (n + 1) = i + 1 + n := by omega
      rw [e2] at h2
      obtain ⟨k, k1, k2, k3, k4, k5⟩ := ih (i + 1) (by omega) h2
      rw [e]
      exact ⟨k, by omega, by omega, k3, k4, k5⟩

theorem bix_small {n : Nat} (h : n < 256) : bix n = n := by simp [bix, bucketIdx, EXACT, h]

theorem bix_big {n : Nat} (h1 : 256 ≤ n) (h2 : n < 2^40) :
    ∃ k, k < 32 ∧ bix n = 256 + k ∧ 256 * 2^k ≤ n ∧ n < 512 * 2^k := by
  obtain ⟨k, _, k2, k3, k4, k5⟩ := bucketLoop_spec n 32 0 (by omega) (by omega)
  refine ⟨k, by omega, ?_, k4, k5⟩
  have : bucketLoop n VARB 0 (EXACT * 2) = some (256 + k) := k3
  simp [bix, bucketIdx, EXACT, Nat.not_lt.2 h1] at this ⊢
  rw [this]; rfl

theorem bix_lt {n : Nat} (h : n < 2^40) : bix n < 288 := by
  rcases Nat.lt_or_ge n 256 with h1 | h1
  · rw [bix_small h1]; omega
  · obtain ⟨k, k1, k2, _⟩ := bix_big h1 h; omega

theorem clr_of {n k : Nat} (hn : n % 8 = 0) (hk : k < 4) : clr (n + k) = n := by unfold clr; omega
theorem clr_self {n : Nat} (hn : n % 8 = 0) : clr n = n := by unfold clr; omega

theorem usedSize_of {w k : Nat} (hw : w % 8 = 0) (hk : k < 4) : usedSize (w + k) = objSize w := by
  unfold usedSize objSize
  rw [clr_of hw hk]
  unfold MINSZ
  split_ifs <;> omega

theorem objSize_al {w : Nat} (hw : w % 8 = 0) : objSize w % 8 = 0 ∧ 32 ≤ objSize w ∧ w ≤ objSize w := by
  unfold objSize; omega

theorem usedBytes_eq {w : Nat} (hw : w % 8 = 0) : usedBytes w = objSize w := by
  unfold usedBytes objSize MINSZ; split_ifs <;> omega

/-! ## Geometry -/

section geo
variable {subs : List Sub} {B : Nat → Option Blk}

theorem Geo.sub_cases (h : Geo subs B) {s t : Sub} (hs : s ∈ subs) (ht : t ∈ subs) :
    s = t ∨ s.aoff + s.asize ≤ t.aoff ∨ t.aoff + t.asize ≤ s.aoff := by
  have := h.subs_pw
  obtain ⟨i, hi, rfl⟩ := List.getElem_of_mem hs
  obtain ⟨j, hj, rfl⟩ := List.getElem_of_mem ht
  rw [List.pairwise_iff_getElem] at this
  rcases Nat.lt_trichotomy i j with h1 | h1 | h1
  · exact .inr (.inl (this i j hi hj h1))
  · subst h1; exact .inl rfl
  · exact .inr (.inr (this j i hj hi h1))

/-- Markers are not inside blocks. -/
theorem Geo.marker_out (h : Geo subs B) {s : Sub} (hs : s ∈ subs) {a : Nat} {b : Blk} (hb : B a = some b) :
    ¬ (a ≤ s.aoff ∧ s.aoff < a + b.size) ∧ ¬ (a ≤ s.hi ∧ s.hi < a + b.size) := by
  obtain ⟨t, ht, h1, h2⟩ := h.inn a b hb
  have h3 := h.subs_al s hs
  have h4 := h.subs_al t ht
  unfold Sub.lo Sub.hi at *
  rcases h.sub_cases hs ht with rfl | h5 | h5 <;> omega

theorem Geo.pos (h : Geo subs B) {a : Nat} {b : Blk} (hb : B a = some b) : 32 < a := by
  obtain ⟨t, ht, h1, h2⟩ := h.inn a b hb
  have := h.subs_al t ht
  unfold Sub.lo at h1; omega

/-- Blocks with overlapping ranges are the same. -/
theorem Geo.eq_of_overlap (h : Geo subs B) {a c x : Nat} {b d : Blk} (hb : B a = some b) (hd : B c = some d)
    (h1 : a ≤ x) (h2 : x < a + b.size) (h3 : c ≤ x) (h4 : x < c + d.size) : a = c ∧ b = d := by
  rcases Nat.lt_trichotomy a c with h5 | h5 | h5
  · have := h.disj a b c d hb hd h5; omega
  · subst h5; rw [hb] at hd; exact ⟨rfl, by injection hd⟩
  · have := h.disj c d a b hd hb h5; omega

theorem Geo.pred_unique (h : Geo subs B) {a c : Nat} {b d : Blk} (hb : B a = some b) (hd : B c = some d)
    (he : a + b.size = c + d.size) : a = c ∧ b = d := by
  have h1 := h.al a b hb
  have h2 := h.al c d hd
  rcases Nat.lt_trichotomy a c with h5 | h5 | h5
  · have := h.disj a b c d hb hd h5; omega
  · subst h5; rw [hb] at hd; exact ⟨rfl, by injection hd⟩
  · have := h.disj c d a b hd hb h5; omega

/-- Geometry depends on sizes only. -/
theorem Geo.congr (h : Geo subs B) {B' : Nat → Option Blk} (he : ∀ a, (B' a).map Blk.size = (B a).map Blk.size) :
    Geo subs B' := by
  have fwd : ∀ a b, B' a = some b → ∃ c, B a = some c ∧ c.size = b.size := by
    intro a b hb
    have := he a
    rw [hb] at this
    cases hc : B a with
    | none => rw [hc] at this; simp at this
    | some c => rw [hc] at this; simp at this; exact ⟨c, rfl, this.symm⟩
  have bwd : ∀ a b, B a = some b → ∃ c, B' a = some c ∧ c.size = b.size := by
    intro a b hb
    have := he a
    rw [hb] at this
    cases hc : B' a with
    | none => rw [hc] at this; simp at this
    | some c => rw [hc] at this; simp at this; exact ⟨c, rfl, this⟩
  refine ⟨h.subs_al, h.subs_pw, ?_, ?_, ?_, ?_, ?_⟩
  · intro a b hb; obtain ⟨c, hc, e⟩ := fwd a b hb; rw [← e]; exact h.al a c hc
  · intro a b hb; obtain ⟨c, hc, e⟩ := fwd a b hb; rw [← e]; exact h.inn a c hc
  · intro a b hb; obtain ⟨c, hc, e⟩ := fwd a b hb; rw [← e]
    rcases h.next a c hc with h1 | ⟨d, h1⟩
    · exact .inl h1
    · obtain ⟨d', hd, _⟩ := bwd _ _ h1; exact .inr ⟨d', hd⟩
  · intro s hs; obtain ⟨c, hc⟩ := h.first s hs; obtain ⟨d, hd, _⟩ := bwd _ _ hc; exact ⟨d, hd⟩
  · intro a b c d hb hd hlt
    obtain ⟨b', hb', e⟩ := fwd a b hb; obtain ⟨d', hd', _⟩ := fwd c d hd
    rw [← e]; exact h.disj a b' c d' hb' hd' hlt
end geo

def setB (B : Nat → Option Blk) (a : Nat) (b : Option Blk) : Nat → Option Blk := fun x => if x = a then b else B x

theorem setB_self (B : Nat → Option Blk) (a : Nat) (b : Option Blk) : setB B a b a = b := by simp [setB]
theorem setB_ne {B : Nat → Option Blk} {a x : Nat} {b : Option Blk} (h : x ≠ a) : setB B a b x = B x := by simp [setB, h]

def G.setK (g : G) (a n : Nat) (k : Kind) : G := { g with blk := setB g.blk a (some ⟨n, k⟩) }

theorem Geo.setK {subs : List Sub} {g : G} (h : Geo subs g.blk) {a n : Nat} {k0 k : Kind} (hb : g.blk a = some ⟨n, k0⟩) :
    Geo subs (g.setK a n k).blk := by
  apply h.congr
  intro x
  by_cases hx : x = a
  · subst hx; simp [G.setK, setB_self, hb]
  · simp [G.setK, setB_ne hx]

/-- Merge of two adjacent blocks. -/
def G.merge (g : G) (a n m : Nat) : G := { g with blk := setB (setB g.blk (a + n) none) a (some ⟨n + m, .hole⟩) }

theorem Geo.merge {subs : List Sub} {g : G} (h : Geo subs g.blk) {a n m : Nat} {k k' : Kind}
    (h1 : g.blk a = some ⟨n, k⟩) (h2 : g.blk (a + n) = some ⟨m, k'⟩) : Geo subs (g.merge a n m).blk := by
  have a1 := h.al _ _ h1
  have a2 := h.al _ _ h2
  simp only at a1 a2
  -- old block containing a new one
  have fwd : ∀ x b, (g.merge a n m).blk x = some b → (x = a ∧ b = ⟨n + m, .hole⟩) ∨ (x ≠ a ∧ x ≠ a + n ∧ g.blk x = some b) := by
    intro x b hb
    simp only [G.merge] at hb
    by_cases hx : x = a
    · subst hx; rw [setB_self] at hb; injection hb with hb; exact .inl ⟨rfl, hb.symm⟩
    · rw [setB_ne hx] at hb
      by_cases hx2 : x = a + n
      · subst hx2; rw [setB_self] at hb; cases hb
      · rw [setB_ne hx2] at hb; exact .inr ⟨hx, hx2, hb⟩
  have bwd : ∀ x b, g.blk x = some b → x ≠ a + n → ∃ c, (g.merge a n m).blk x = some c := by
    intro x b hb hx
    by_cases hxa : x = a
    · subst hxa; exact ⟨_, setB_self _ _ _⟩
    · exact ⟨b, by simp [G.merge, setB_ne hxa, setB_ne hx, hb]⟩
  refine ⟨h.subs_al, h.subs_pw, ?_, ?_, ?_, ?_, ?_⟩
  · intro x b hb
    rcases fwd x b hb with ⟨rfl, rfl⟩ | ⟨_, _, hb⟩
    · simp only; omega
    · exact h.al x b hb
  · intro x b hb
    rcases fwd x b hb with ⟨rfl, rfl⟩ | ⟨_, _, hb⟩
    · obtain ⟨s, hs, i1, i2⟩ := h.inn _ _ h1
      obtain ⟨t, ht, j1, j2⟩ := h.inn _ _ h2
      have e1 := h.subs_al s hs
      have e2 := h.subs_al t ht
      simp only at *
      unfold Sub.lo Sub.hi at *
      rcases h.sub_cases hs ht with rfl | h5 | h5
      · exact ⟨s, hs, by omega, by omega⟩
      · omega
      · omega
    · exact h.inn x b hb
  · intro x b hb
    rcases fwd x b hb with ⟨rfl, rfl⟩ | ⟨hxa, hxn, hb⟩
    · simp only
      rcases h.next _ _ h2 with ⟨s, hs, e⟩ | ⟨c, hc⟩
      · exact .inl ⟨s, hs, by simpa [Nat.add_assoc] using e⟩
      · right
        simp only [Nat.add_assoc] at hc
        exact bwd _ _ hc (by omega)
    · rcases h.next x b hb with h3 | ⟨c, hc⟩
      · exact .inl h3
      · right
        refine bwd _ _ hc ?_
        intro e
        have hab := h.al x b hb
        have hh : x + b.size = a + (⟨n, k⟩ : Blk).size := e
        have := h.pred_unique hb h1 hh
        exact hxa this.1
  · intro s hs
    obtain ⟨c, hc⟩ := h.first s hs
    refine bwd _ _ hc ?_
    intro e
    obtain ⟨t, ht, i1, i2⟩ := h.inn _ _ h1
    have e1 := h.subs_al s hs
    have e2 := h.subs_al t ht
    simp only at i2
    unfold Sub.lo Sub.hi at *
    rcases h.sub_cases hs ht with rfl | h5 | h5 <;> omega
  · intro x b y d hb hd hlt
    rcases fwd x b hb with ⟨rfl, rfl⟩ | ⟨hxa, hxn, hb2⟩ <;> rcases fwd y d hd with ⟨rfl, rfl⟩ | ⟨hya, hyn, hd2⟩
    · omega
    · simp only
      have h3 := h.disj _ _ _ _ h1 hd2 hlt
      simp only at h3
      have h4 := h.disj _ _ _ _ h2 hd2 (by omega)
      simp only at h4; omega
    · exact h.disj _ _ _ _ hb2 h1 hlt
    · exact h.disj _ _ _ _ hb2 hd2 hlt

/-- Split of a block. -/
def G.split (g : G) (a n m : Nat) : G :=
  { g with blk := setB (setB g.blk (a + n) (some ⟨m, .hole⟩)) a (some ⟨n, .hole⟩) }

theorem Geo.split_fwd {g : G} {a n m : Nat} {x : Nat} {b : Blk} (hb : (g.split a n m).blk x = some b) :
    (x = a ∧ b = ⟨n, .hole⟩) ∨ (x = a + n ∧ b = ⟨m, .hole⟩) ∨ (x ≠ a ∧ x ≠ a + n ∧ g.blk x = some b) := by
  simp only [G.split] at hb
  by_cases hx : x = a
  · subst hx; rw [setB_self] at hb; injection hb with hb; exact .inl ⟨rfl, hb.symm⟩
  · rw [setB_ne hx] at hb
    by_cases hx2 : x = a + n
    · subst hx2; rw [setB_self] at hb; injection hb with hb; exact .inr (.inl ⟨rfl, hb.symm⟩)
    · rw [setB_ne hx2] at hb; exact .inr (.inr ⟨hx, hx2, hb⟩)

theorem Geo.split {subs : List Sub} {g : G} (h : Geo subs g.blk) {a n m : Nat} {k : Kind}
    (h1 : g.blk a = some ⟨n + m, k⟩) (hn : n % 8 = 0) (hm : m % 8 = 0) (hn2 : 32 ≤ n) (hm2 : 32 ≤ m) :
    Geo subs (g.split a n m).blk := by
  have a1 := h.al _ _ h1
  simp only at a1
  have bwd : ∀ x b, g.blk x = some b → ∃ c, (g.split a n m).blk x = some c := by
    intro x b hb
    by_cases hxa : x = a
    · subst hxa; exact ⟨_, setB_self _ _ _⟩
    · by_cases hx : x = a + n
      · subst hx
        have := h.disj _ _ _ _ h1 hb (by omega)
        simp only at this; omega
      · exact ⟨b, by simp [G.split, setB_ne hxa, setB_ne hx, hb]⟩
  have ena : (g.split a n m).blk (a + n) = some ⟨m, .hole⟩ := by
    simp only [G.split]; rw [setB_ne (by omega), setB_self]
  refine ⟨h.subs_al, h.subs_pw, ?_, ?_, ?_, ?_, ?_⟩
  · intro x b hb
    rcases Geo.split_fwd hb with ⟨rfl, rfl⟩ | ⟨rfl, rfl⟩ | ⟨_, _, hb⟩
    · simp only; omega
    · simp only; omega
    · exact h.al x b hb
  · intro x b hb
    rcases Geo.split_fwd hb with ⟨rfl, rfl⟩ | ⟨rfl, rfl⟩ | ⟨_, _, hb⟩
    · obtain ⟨s, hs, i1, i2⟩ := h.inn _ _ h1
      simp only at *
      exact ⟨s, hs, by omega, by omega⟩
    · obtain ⟨s, hs, i1, i2⟩ := h.inn _ _ h1
      simp only at *
      exact ⟨s, hs, by omega, by omega⟩
    · exact h.inn x b hb
  · intro x b hb
    rcases Geo.split_fwd hb with ⟨rfl, rfl⟩ | ⟨rfl, rfl⟩ | ⟨hxa, hxn, hb⟩
    · exact .inr ⟨_, ena⟩
    · rcases h.next _ _ h1 with ⟨s, hs, e⟩ | ⟨c, hc⟩
      · exact .inl ⟨s, hs, by simpa [Nat.add_assoc] using e⟩
      · right
        simp only [Nat.add_assoc] at hc ⊢
        exact bwd _ _ hc
    · rcases h.next x b hb with h3 | ⟨c, hc⟩
      · exact .inl h3
      · exact .inr (bwd _ _ hc)
  · intro s hs
    obtain ⟨c, hc⟩ := h.first s hs
    exact bwd _ _ hc
  · intro x b y d hb hd hlt
    rcases Geo.split_fwd hb with ⟨rfl, rfl⟩ | ⟨rfl, rfl⟩ | ⟨hxa, hxn, hb2⟩ <;>
      rcases Geo.split_fwd hd with ⟨rfl, rfl⟩ | ⟨rfl, rfl⟩ | ⟨hya, hyn, hd2⟩
    · omega
    · simp only; omega
    · have := h.disj _ _ _ _ h1 hd2 hlt; simp only at this ⊢; omega
    · omega
    · omega
    · have := h.disj _ _ _ _ h1 hd2 (by omega); simp only at this ⊢; omega
    · exact h.disj _ _ _ _ hb2 h1 hlt
    · rcases Nat.lt_or_ge x a with h3 | h3
      · have := h.disj _ _ _ _ hb2 h1 h3; omega
      · have := h.disj _ _ _ _ h1 hb2 (by omega); simp only at this; omega
    · exact h.disj _ _ _ _ hb2 hd2 hlt

end WG.Varlen
