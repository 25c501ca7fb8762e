import Verif.Fixlen.Model
import Verif.Varlen.Extend
import Mathlib.Tactic.SplitIfs
import Mathlib.Tactic.ByContra
/-!
# C11: fixed-length cells; C12: segment chunks
-/
namespace WG.Fixlen
open WG.Varlen (Sub upd allocChunk MINSUB MAXSUBS MINSZ allocChunk_some upd_self upd_ne)

/-! ## Specification -/

/-- Cells in use. -/
abbrev InUse := Nat → Prop

/-- `x` belongs to one of the subareas of the area. -/
def InArea (st : St) (x : Nat) : Prop := ∃ s ∈ st.subs, s.aoff ≤ x ∧ x < s.aoff + s.asize

/-- Possible histories of one area: allocations, frees of cells in use, writes of the owner into a cell, and actions of the rest of
the database: chunks taken by other areas, and writes anywhere outside this area. -/
inductive Reach : St → InUse → Prop
  | new {mem : Nat → Nat} {obj sf ss size : Nat} {st : St} : obj % 8 = 0 → 0 < obj → obj ≤ 8192 → sf % 8 = 0 → 0 < sf → sf ≤ ss →
      newArea mem obj sf ss size = some st → Reach st (fun _ => False)
  | alloc {st st' : St} {U : InUse} {a : Nat} : Reach st U → alloc st = (st', some a) → Reach st' (fun x => x = a ∨ U x)
  | allocFail {st st' : St} {U : InUse} : Reach st U → alloc st = (st', none) → Reach st' U
  | free {st : St} {U : InUse} {a : Nat} : Reach st U → U a → Reach (free st a) (fun x => x ≠ a ∧ U x)
  | write {st : St} {U : InUse} {a x v : Nat} : Reach st U → U a → x % 8 = 0 → a ≤ x → x < a + st.obj → Reach { st with mem := upd st.mem x v } U
  | others {st : St} {U : InUse} {mem' : Nat → Nat} {f : Nat} : Reach st U → st.segFree ≤ f → f % 8 = 0 → f ≤ st.segSize →
      (∀ x, InArea st x → mem' x = st.mem x) → Reach { st with mem := mem', segFree := f } U

/-- `x` is on the free list. -/
inductive OnList (st : St) : Nat → Prop
  | head : st.freelist ≠ 0 → OnList st st.freelist
  | next {x : Nat} : OnList st x → st.mem x ≠ 0 → OnList st (st.mem x)

/-- Two ranges of bytes do not meet. -/
def Apart (a n b m : Nat) : Prop := a + n ≤ b ∨ b + m ≤ a

/-! ## Invariant -/

def Cell (st : St) (x : Nat) : Prop := ∃ s ∈ st.subs, ∃ k, x = s.aoff + k * st.obj ∧ x + st.obj ≤ s.aoff + s.asize

def Chain (mem : Nat → Nat) : List Nat → Prop
  | [] => True
  | a :: l => mem a = l.headD 0 ∧ Chain mem l

structure Inv (st : St) (U : InUse) (fl : List Nat) : Prop where
  obj : st.obj % 8 = 0 ∧ 0 < st.obj ∧ st.obj ≤ 8192
  subs_al : ∀ s ∈ st.subs, s.aoff % 8 = 0 ∧ 0 < s.aoff ∧ s.aoff + s.asize ≤ st.segFree ∧ 8192 ≤ s.size
  subs_pw : st.subs.Pairwise fun s t => s.aoff + s.asize ≤ t.aoff
  seg : st.segFree % 8 = 0 ∧ 0 < st.segFree ∧ st.segFree ≤ st.segSize
  head : st.freelist = fl.headD 0
  chain : Chain st.mem fl
  nodup : fl.Nodup
  cell : ∀ x, Cell st x ↔ U x ∨ x ∈ fl
  excl : ∀ x, U x → x ∉ fl

theorem Chain.congr {mem mem' : Nat → Nat} : ∀ {l : List Nat}, Chain mem l → (∀ x ∈ l, mem' x = mem x) → Chain mem' l := by
  intro l
  induction l with
  | nil => intro _ _; trivial
  | cons a l ih =>
    intro h he
    exact ⟨by rw [he a (by simp)]; exact h.1, ih h.2 (fun x hx => he x (by simp [hx]))⟩

theorem Inv.sub_cases {st : St} {U : InUse} {fl : List Nat} (h : Inv st U fl) {s t : Sub} (hs : s ∈ st.subs) (ht : t ∈ st.subs) :
    s = t ∨ s.aoff + s.asize ≤ t.aoff ∨ t.aoff + t.asize ≤ s.aoff := by
  have := h.subs_pw
  obtain ⟨i, hi, rfl⟩ := List.getElem_of_mem hs
  obtain ⟨j, hj, rfl⟩ := List.getElem_of_mem ht
  rw [List.pairwise_iff_getElem] at this
  rcases Nat.lt_trichotomy i j with h1 | h1 | h1
  · exact .inr (.inl (this i j hi hj h1))
  · subst h1; exact .inl rfl
  · exact .inr (.inr (this j i hj hi h1))

theorem Inv.apart {st : St} {U : InUse} {fl : List Nat} (h : Inv st U fl) {x y : Nat} (hx : Cell st x) (hy : Cell st y) (hne : x ≠ y) :
    Apart x st.obj y st.obj := by
  obtain ⟨s, hs, k, e1, h1⟩ := hx
  obtain ⟨t, ht, j, e2, h2⟩ := hy
  have := h.obj.2.1
  rcases h.sub_cases hs ht with rfl | e | e
  · rcases Nat.lt_trichotomy k j with h5 | h5 | h5
    · left
      have : (k + 1) * st.obj ≤ j * st.obj := Nat.mul_le_mul_right _ h5
      rw [Nat.add_mul, Nat.one_mul] at this
      omega
    · subst h5; omega
    · right
      have : (j + 1) * st.obj ≤ k * st.obj := Nat.mul_le_mul_right _ h5
      rw [Nat.add_mul, Nat.one_mul] at this
      omega
  · left; omega
  · right; omega

theorem Cell.pos {st : St} {U : InUse} {fl : List Nat} (h : Inv st U fl) {x : Nat} (hx : Cell st x) : 0 < x ∧ x % 8 = 0 := by
  obtain ⟨s, hs, k, e1, h1⟩ := hx
  have := h.subs_al s hs
  have ho := h.obj.1
  have : (k * st.obj) % 8 = 0 := by rw [Nat.mul_mod, ho]; simp
  omega

/-- Any change of memory outside the free cells' first words. -/
theorem Inv.congr {st : St} {U : InUse} {fl : List Nat} (h : Inv st U fl) {mem' : Nat → Nat} (hm : ∀ x ∈ fl, mem' x = st.mem x) :
    Inv { st with mem := mem' } U fl :=
  ⟨h.obj, h.subs_al, h.subs_pw, h.seg, h.head, h.chain.congr hm, h.nodup, h.cell, h.excl⟩

/-! ## Building the list of a new subarea -/

def cells (obj : Nat) : Nat → Nat → List Nat
  | 0, _ => []
  | n + 1, i => i :: cells obj n (i + obj)

theorem mem_cells {obj : Nat} : ∀ {n i x : Nat}, x ∈ cells obj n i ↔ ∃ k, k < n ∧ x = i + k * obj := by
  intro n
  induction n with
  | zero => intro i x; simp [cells]
  | succ n ih =>
    intro i x
    simp only [cells, List.mem_cons, ih]
    constructor
    · rintro (rfl | ⟨k, hk, rfl⟩)
      · exact ⟨0, by omega, by simp⟩
      · exact ⟨k + 1, by omega, by rw [Nat.add_mul]; omega⟩
    · rintro ⟨k, hk, rfl⟩
      cases k with
      | zero => left; simp
      | succ k => right; exact ⟨k, by omega, by rw [Nat.add_mul]; omega⟩

theorem nodup_cells {obj : Nat} (ho : 0 < obj) : ∀ {n i : Nat}, (cells obj n i).Nodup := by
  intro n
  induction n with
  | zero => intro i; simp [cells]
  | succ n ih =>
    intro i
    simp only [cells, List.nodup_cons]
    refine ⟨?_, ih⟩
    rw [mem_cells]
    rintro ⟨k, _, h⟩
    omega

/-- The loop links cells `i`, `i+obj`, ... up to the last whole cell before `e`. -/
theorem link_spec {obj e : Nat} (ho : 0 < obj) : ∀ (k : Nat) {mem : Nat → Nat} {i : Nat}, i + obj ≤ e → e < i + k →
    ∃ n, 0 < n ∧ i + n * obj ≤ e ∧ e < i + (n + 1) * obj ∧ Chain (link obj e k mem i) (cells obj n i) ∧
      ∀ y, (∀ j, j < n → y ≠ i + j * obj) → link obj e k mem i y = mem y := by
  intro k
  induction k with
  | zero => intro mem i h1 h2; omega
  | succ k ih =>
    intro mem i h1 h2
    unfold link
    by_cases h : i + 2 * obj ≤ e
    · rw [if_pos h]
      obtain ⟨n, n0, n1, n2, n3, n4⟩ := ih (mem := upd mem i (i + obj)) (i := i + obj) (by omega) (by omega)
      refine ⟨n + 1, by omega, by rw [Nat.add_mul]; omega, by rw [Nat.add_mul]; omega, ⟨?_, n3⟩, ?_⟩
      · rw [n4 i (by intro j _; omega), upd_self]
        cases n with
        | zero => omega
        | succ n => rfl
      · intro y hy
        rw [n4 y (by intro j hj e; exact hy (j + 1) (by omega) (by rw [Nat.add_mul]; omega)), upd_ne]
        have := hy 0 (by omega)
        omega
    · rw [if_neg h]
      refine ⟨1, by omega, by omega, by omega, ⟨upd_self _ _ _, trivial⟩, ?_⟩
      intro y hy
      rw [upd_ne]
      have := hy 0 (by omega)
      omega

theorem initSubarea_some {st st' : St} {size : Nat} (h8 : st.segFree % 8 = 0) (h : initSubarea st size = some st') :
    8192 ≤ size ∧ ∃ f, st' = { st with segFree := f, subs := st.subs ++ [⟨size, st.segFree, size - size % 32, st.segFree⟩], freelist := 0 } ∧
      st.segFree + size ≤ f ∧ f % 8 = 0 ∧ f < st.segSize := by
  unfold initSubarea at h
  split_ifs at h with h1
  have hsz : ¬ size < 8192 := h1
  split at h
  · cases h
  · rename_i chunk free hc
    obtain ⟨e1, e2, e3, e4⟩ := allocChunk_some h8 hc
    injection h with h
    subst e1
    refine ⟨by omega, free, ?_, by omega, by omega, by omega⟩
    rw [← h]
    rw [h8]
    rfl

/-- Adding a linked subarea to an area whose free list is empty. -/
theorem Inv.grow {st st' : St} {U : InUse} (h : Inv st U []) {size : Nat} (hi : initSubarea st size = some st') :
    (∃ fl, Inv (makeFreelist st') U fl ∧ fl ≠ []) ∧ (makeFreelist st').segSize = st.segSize ∧ (makeFreelist st').obj = st.obj ∧
      st.segFree ≤ (makeFreelist st').segFree ∧ (∀ x, x < st.segFree ∨ st.segSize ≤ x → (makeFreelist st').mem x = st.mem x) ∧
      (∃ l, (makeFreelist st').subs = st.subs ++ l) := by
  obtain ⟨hs, f, rfl, h1, h2, h3⟩ := initSubarea_some h.seg.1 hi
  unfold makeFreelist
  rw [show ({ st with segFree := f, subs := st.subs ++ [⟨size, st.segFree, size - size % 32, st.segFree⟩], freelist := 0 } : St).subs.getLast? = some ⟨size, st.segFree, size - size % 32, st.segFree⟩ by simp]
  have ho := h.obj
  obtain ⟨n, n0, n1, n2, n3, n4⟩ := link_spec ho.2.1 (size - size % 32 + 1) (mem := st.mem) (i := st.segFree)
    (e := st.segFree + (size - size % 32)) (by omega) (by omega)
  refine ⟨⟨cells st.obj n st.segFree, ?_, ?_⟩, rfl, rfl, by simp only; omega, ?_, _, rfl⟩
  · refine ⟨ho, ?_, ?_, ⟨h2, by simp only; omega, by simp only; omega⟩, ?_, n3, nodup_cells ho.2.1, ?_, ?_⟩
    · intro s hs'
      simp only [List.mem_append, List.mem_singleton] at hs' ⊢
      rcases hs' with hs' | rfl
      · have := h.subs_al s hs'
        have := h.seg; omega
      · have := h.seg
        simp only; omega
    · rw [List.pairwise_append]
      refine ⟨h.subs_pw, by simp, ?_⟩
      intro a ha b hb
      simp only [List.mem_singleton] at hb
      subst hb
      exact (h.subs_al a ha).2.2.1
    · cases n with
      | zero => omega
      | succ n => rfl
    · intro x
      rw [mem_cells]
      have hold := h.cell x
      simp only [List.not_mem_nil, or_false] at hold
      constructor
      · rintro ⟨s, hs', k, e1, e2⟩
        simp only [List.mem_append, List.mem_singleton] at hs' e1 e2
        rcases hs' with hs' | rfl
        · exact .inl (hold.1 ⟨s, hs', k, e1, e2⟩)
        · refine .inr ⟨k, ?_, e1⟩
          simp only at e1 e2
          by_contra hk
          have : (n + 1) * st.obj ≤ (k + 1) * st.obj := Nat.mul_le_mul_right _ (by omega)
          rw [Nat.add_mul k, Nat.one_mul] at this
          omega
      · rintro (hx | ⟨k, hk, e⟩)
        · obtain ⟨s, hs', k, e1, e2⟩ := hold.2 hx
          exact ⟨s, by simp [hs'], k, e1, e2⟩
        · refine ⟨_, List.mem_append_right _ (List.mem_singleton.2 rfl), k, e, ?_⟩
          simp only
          have : (k + 1) * st.obj ≤ n * st.obj := Nat.mul_le_mul_right _ (by omega)
          rw [Nat.add_mul, Nat.one_mul] at this
          omega
    · intro x hx hm
      rw [mem_cells] at hm
      obtain ⟨k, _, e⟩ := hm
      obtain ⟨s, hs', j, e1, e2⟩ := (h.cell x).2 (.inl hx)
      have := h.subs_al s hs'
      omega
  · cases n with
    | zero => omega
    | succ n => simp [cells]
  · intro x hx
    refine n4 x ?_
    intro j hj
    have hk : (j + 1) * st.obj ≤ n * st.obj := Nat.mul_le_mul_right _ (by omega)
    rw [Nat.add_mul, Nat.one_mul] at hk
    omega

theorem trySizes_some {st st' : St} : ∀ {k n : Nat}, trySizes st k n = some st' → ∃ m, initSubarea st m = some st' := by
  intro k
  induction k with
  | zero => intro n h; cases h
  | succ k ih =>
    intro n h
    unfold trySizes at h
    split_ifs at h
    split at h
    · rename_i t ht
      injection h with h; subst h
      exact ⟨n, ht⟩
    · exact ih h

theorem extend_some {st st' : St} (h : extend st = some st') : ∃ n t, initSubarea st n = some t ∧ st' = makeFreelist t := by
  unfold extend at h
  split at h
  · cases h
  · split_ifs at h
    split at h
    · cases h
    · rename_i t ht
      injection h with h
      obtain ⟨n, hn⟩ := trySizes_some ht
      exact ⟨n, t, hn, h.symm⟩

/-- Taking the first cell of a nonempty list. -/
theorem Inv.take {st : St} {U : InUse} {a : Nat} {l : List Nat} (h : Inv st U (a :: l)) :
    Inv { st with freelist := st.mem a } (fun x => x = a ∨ U x) l ∧ st.freelist = a ∧ a ≠ 0 ∧ ¬ U a := by
  have hc : Cell st a := (h.cell a).2 (.inr (by simp))
  have hnd := List.nodup_cons.1 h.nodup
  refine ⟨⟨h.obj, h.subs_al, h.subs_pw, h.seg, h.chain.1, h.chain.2, hnd.2, ?_, ?_⟩, h.head, by have := hc.pos h; omega,
    fun hu => h.excl a hu (by simp)⟩
  · intro x
    have := h.cell x
    simp only [List.mem_cons] at this
    show Cell st x ↔ _
    rw [this]
    constructor
    · rintro (h1 | h1 | h1)
      · exact .inl (.inr h1)
      · exact .inl (.inl h1)
      · exact .inr h1
    · rintro ((h1 | h1) | h1)
      · exact .inr (.inl h1)
      · exact .inl h1
      · exact .inr (.inr h1)
  · rintro x (rfl | hx)
    · exact hnd.1
    · intro hm; exact h.excl x hx (by simp [hm])

/-- What an allocation does. -/
theorem alloc_res {st : St} {U : InUse} {fl : List Nat} (h : Inv st U fl) :
    ((∃ a l, (alloc st).2 = some a ∧ Inv (alloc st).1 (fun x => x = a ∨ U x) l ∧ ¬ U a) ∨
     ((alloc st).2 = none ∧ (alloc st).1 = st ∧ fl = [])) ∧
    (alloc st).1.segSize = st.segSize ∧ st.segFree ≤ (alloc st).1.segFree ∧ (alloc st).1.obj = st.obj ∧
    (∀ x, x < st.segFree ∨ st.segSize ≤ x → (alloc st).1.mem x = st.mem x) ∧ (∃ l, (alloc st).1.subs = st.subs ++ l) ∧
    (fl ≠ [] → (alloc st).2 = fl.head? ∧ (alloc st).1.subs = st.subs ∧ (alloc st).1.segFree = st.segFree) := by
  unfold alloc
  cases fl with
  | nil =>
    have h0 : st.freelist = 0 := h.head
    rw [if_pos h0]
    cases he : extend st with
    | none => exact ⟨.inr ⟨rfl, rfl, rfl⟩, rfl, Nat.le_refl _, rfl, fun _ _ => rfl, ⟨[], by simp⟩, fun h => absurd rfl h⟩
    | some st1 =>
      simp only
      obtain ⟨n, t, ht, rfl⟩ := extend_some he
      obtain ⟨⟨fl, i1, hne⟩, g1, g2, g3, g4, g5⟩ := h.grow ht
      cases fl with
      | nil => exact absurd rfl hne
      | cons a l =>
        obtain ⟨k1, k2, k3, k4⟩ := i1.take
        rw [k2, if_neg k3]
        exact ⟨.inl ⟨a, l, rfl, k1, k4⟩, g1, g3, g2, g4, g5, fun h => absurd rfl h⟩
  | cons a l =>
    obtain ⟨k1, k2, k3, k4⟩ := h.take
    rw [k2, if_neg k3]
    exact ⟨.inl ⟨a, l, rfl, k1, k4⟩, rfl, Nat.le_refl _, rfl, fun _ _ => rfl, ⟨[], by simp⟩, fun _ => ⟨rfl, rfl, rfl⟩⟩

theorem free_res {st : St} {U : InUse} {fl : List Nat} (h : Inv st U fl) {a : Nat} (ha : U a) :
    Inv (free st a) (fun x => x ≠ a ∧ U x) (a :: fl) := by
  refine ⟨h.obj, h.subs_al, h.subs_pw, h.seg, rfl, ⟨?_, ?_⟩, ?_, ?_, ?_⟩
  · show upd st.mem a st.freelist a = _
    rw [upd_self]; exact h.head
  · refine h.chain.congr ?_
    intro x hx
    show upd st.mem a st.freelist x = _
    rw [upd_ne]
    rintro rfl
    exact h.excl _ ha hx
  · exact List.nodup_cons.2 ⟨h.excl a ha, h.nodup⟩
  · intro x
    have := h.cell x
    show Cell st x ↔ _
    rw [this, List.mem_cons]
    constructor
    · rintro (h1 | h1)
      · by_cases hx : x = a
        · exact .inr (.inl hx)
        · exact .inl ⟨hx, h1⟩
      · exact .inr (.inr h1)
    · rintro (⟨_, h1⟩ | rfl | h1)
      · exact .inl h1
      · exact .inl ha
      · exact .inr h1
  · rintro x ⟨h1, h2⟩ hm
    rcases List.mem_cons.1 hm with h3 | h3
    · exact h1 h3
    · exact h.excl x h2 h3

theorem InArea.of_cell {st : St} {x y : Nat} (h : Cell st x) (h1 : x ≤ y) (h2 : y < x + st.obj) : InArea st y := by
  obtain ⟨s, hs, k, e1, e2⟩ := h
  exact ⟨s, hs, by omega, by omega⟩

theorem reach_inv {st : St} {U : InUse} (h : Reach st U) : ∃ fl, Inv st U fl := by
  induction h with
  | new h1 h2 h3 h4 h5 h6 h =>
    unfold newArea at h
    split at h
    · cases h
    · rename_i t ht
      injection h with h; subst h
      rename_i mem0 obj0 sf0 ss0 size0 _
      have i0 : Inv ⟨mem0, obj0, 0, [], sf0, ss0⟩ (fun _ => False) [] := by
        refine ⟨⟨h1, h2, h3⟩, ?_, ?_, ⟨h4, h5, h6⟩, rfl, trivial, by simp, ?_, ?_⟩
        · intro s hs; simp at hs
        · simp
        · intro x; simp [Cell]
        · intro x hx; exact absurd hx (by simp)
      obtain ⟨⟨fl, i1, _⟩, _⟩ := i0.grow ht
      exact ⟨fl, i1⟩
  | alloc hr h ih =>
    obtain ⟨fl, hi⟩ := ih
    obtain ⟨r, _⟩ := alloc_res hi
    rw [h] at r
    rcases r with ⟨a', l, e, h1, _⟩ | ⟨e, _⟩
    · simp only [Option.some.injEq] at e; subst e; exact ⟨l, h1⟩
    · simp at e
  | allocFail hr h ih =>
    obtain ⟨fl, hi⟩ := ih
    obtain ⟨r, _⟩ := alloc_res hi
    rw [h] at r
    rcases r with ⟨a', l, e, h1, _⟩ | ⟨_, e, _⟩
    · simp at e
    · simp only at e; subst e; exact ⟨fl, hi⟩
  | free hr ha ih =>
    obtain ⟨fl, hi⟩ := ih
    exact ⟨_, free_res hi ha⟩
  | write hr ha h1 h2 h3 ih =>
    obtain ⟨fl, hi⟩ := ih
    refine ⟨fl, hi.congr ?_⟩
    intro y hy
    rw [upd_ne]
    rintro rfl
    rename_i a v
    have hne : y ≠ a := fun e => hi.excl _ ha (e ▸ hy)
    have hcy := (hi.cell y).2 (.inr hy)
    have := hi.obj
    have := hi.apart hcy ((hi.cell _).2 (.inl ha)) hne
    unfold Apart at this
    omega
  | others hr hf h8 hz hm ih =>
    obtain ⟨fl, hi⟩ := ih
    have i1 := hi.congr (mem' := _) (fun x hx => hm x (InArea.of_cell ((hi.cell x).2 (.inr hx)) (Nat.le_refl _) (by have := hi.obj; omega)))
    refine ⟨fl, ⟨i1.obj, ?_, i1.subs_pw, ?_, i1.head, i1.chain, i1.nodup, i1.cell, i1.excl⟩⟩
    · intro s hs
      have := hi.subs_al s hs
      simp only; omega
    · have := hi.seg
      simp only; omega

theorem onList_iff {st : St} {U : InUse} {fl : List Nat} (h : Inv st U fl) {x : Nat} : OnList st x ↔ x ∈ fl := by
  have key : ∀ {l : List Nat}, Chain st.mem l → (∀ y ∈ l, y ≠ 0) → ∀ {h0 : Nat}, h0 = l.headD 0 → h0 ≠ 0 → OnList st h0 → ∀ y ∈ l, OnList st y := by
    intro l
    induction l with
    | nil => intro _ _ h0 _ _ _ y hy; simp at hy
    | cons a l ih =>
      intro hc hp h0 e hne ho y hy
      simp only [List.headD_cons] at e
      subst e
      rcases List.mem_cons.1 hy with rfl | hy
      · exact ho
      · have hm : st.mem h0 ≠ 0 := by
          rw [hc.1]
          cases l with
          | nil => simp at hy
          | cons b l => exact hp b (by simp)
        exact ih hc.2 (fun z hz => hp z (by simp [hz])) hc.1 hm (.next ho hm) y hy
  have pos : ∀ y ∈ fl, y ≠ 0 := fun y hy => by have := ((h.cell y).2 (.inr hy)).pos h; omega
  constructor
  · intro ho
    induction ho with
    | head hne =>
      rw [h.head] at hne ⊢
      cases fl with
      | nil => simp at hne
      | cons a l => simp
    | next hx hne ih =>
      have : ∀ {l : List Nat} {y : Nat}, Chain st.mem l → y ∈ l → st.mem y ≠ 0 → st.mem y ∈ l := by
        intro l
        induction l with
        | nil => intro y _ hy; simp at hy
        | cons a l ih =>
          intro y hc hy hne
          rcases List.mem_cons.1 hy with rfl | hy
          · rw [hc.1] at hne ⊢
            cases l with
            | nil => simp at hne
            | cons b l => simp
          · exact List.mem_cons_of_mem _ (ih hc.2 hy hne)
      exact this h.chain ih hne
  · intro hx
    cases fl with
    | nil => simp at hx
    | cons a l =>
      have h0 := h.head
      have hne : st.freelist ≠ 0 := by rw [h0]; exact pos a (by simp)
      exact key h.chain pos h0 hne (.head hne) x hx

/-! ## C11 -/

/-- A cell handed out was not in use, and does not meet any cell in use. -/
theorem C11_fresh {st st' : St} {U : InUse} {a : Nat} (h : Reach st U) (ha : alloc st = (st', some a)) :
    ¬ U a ∧ ∀ b, U b → Apart a st.obj b st.obj := by
  obtain ⟨fl, hi⟩ := reach_inv h
  obtain ⟨r, _, _, r3, _⟩ := alloc_res hi
  rw [ha] at r r3
  simp only at r3
  rcases r with ⟨a', l, e, h1, h2⟩ | ⟨e, _⟩
  · simp only [Option.some.injEq] at e; subst e
    refine ⟨h2, ?_⟩
    intro b hb
    have hne : a ≠ b := by rintro rfl; exact h2 hb
    have := h1.apart ((h1.cell a).2 (.inl (.inl rfl))) ((h1.cell b).2 (.inl (.inr hb))) hne
    simp only at this
    rw [r3] at this
    exact this
  · simp at e

/-- Cells in use do not meet each other nor free cells. -/
theorem C11_disjoint {st : St} {U : InUse} (h : Reach st U) {a b : Nat} (ha : U a) (hb : U b ∨ OnList st b) (hne : a ≠ b) :
    Apart a st.obj b st.obj := by
  obtain ⟨fl, hi⟩ := reach_inv h
  refine hi.apart ((hi.cell a).2 (.inl ha)) ?_ hne
  rcases hb with hb | hb
  · exact (hi.cell b).2 (.inl hb)
  · exact (hi.cell b).2 (.inr ((onList_iff hi).1 hb))

/-- No cell is in use and on the free list at once. -/
theorem C11_not_free {st : St} {U : InUse} (h : Reach st U) {a : Nat} (ha : U a) : ¬ OnList st a := by
  obtain ⟨fl, hi⟩ := reach_inv h
  exact fun ho => hi.excl a ha ((onList_iff hi).1 ho)

/-- A cell in use is aligned, at a positive offset, inside a subarea of the area and inside the used part of the segment. -/
theorem C11_inside {st : St} {U : InUse} (h : Reach st U) {a : Nat} (ha : U a) :
    a % 8 = 0 ∧ 0 < a ∧ ∃ s ∈ st.subs, s.aoff ≤ a ∧ a + st.obj ≤ s.aoff + s.asize ∧ s.aoff + s.asize ≤ st.segFree ∧ st.segFree ≤ st.segSize := by
  obtain ⟨fl, hi⟩ := reach_inv h
  have hc := (hi.cell a).2 (.inl ha)
  obtain ⟨s, hs, k, e1, e2⟩ := id hc
  have := hi.subs_al s hs
  exact ⟨(Cell.pos hi hc).2, (Cell.pos hi hc).1, s, hs, by omega, e2, this.2.2.1, hi.seg.2.2⟩

/-- An allocation writes nothing in the part of the segment in use before: growing the area changes no cell in use, and nothing of
other areas; and it writes nothing behind the segment. -/
theorem C11_alloc_frame {st : St} {U : InUse} (h : Reach st U) : ∀ x, x < st.segFree ∨ st.segSize ≤ x → (alloc st).1.mem x = st.mem x := by
  obtain ⟨fl, hi⟩ := reach_inv h
  exact (alloc_res hi).2.2.2.2.1

/-- A free writes only inside the cell freed. -/
theorem C11_free_frame (st : St) (a : Nat) : ∀ x, x ≠ a → (free st a).mem x = st.mem x := fun _ h => upd_ne h

/-- A cell freed is handed out by the next allocation, and the area does not grow. -/
theorem C11_reuse {st : St} {U : InUse} (h : Reach st U) {a : Nat} (ha : U a) :
    (alloc (free st a)).2 = some a ∧ (alloc (free st a)).1.subs = st.subs ∧ (alloc (free st a)).1.segFree = st.segFree := by
  obtain ⟨fl, hi⟩ := reach_inv h
  exact (alloc_res (free_res hi ha)).2.2.2.2.2.2 (by simp)

/-- Nothing is lost: an area that does not grow hands out all its cells. Every place for a cell in a subarea is in use or on the
free list, and an allocation fails only if the free list is empty. -/
theorem C11_nothing_lost {st : St} {U : InUse} (h : Reach st U) :
    (∀ s ∈ st.subs, ∀ k, (k + 1) * st.obj ≤ s.asize → U (s.aoff + k * st.obj) ∨ OnList st (s.aoff + k * st.obj)) ∧
    ((alloc st).2 = none → ∀ x, ¬ OnList st x) := by
  obtain ⟨fl, hi⟩ := reach_inv h
  constructor
  · intro s hs k hk
    rw [onList_iff hi]
    refine (hi.cell _).1 ⟨s, hs, k, rfl, ?_⟩
    rw [Nat.add_mul, Nat.one_mul] at hk
    omega
  · intro hn x
    rcases (alloc_res hi).1 with ⟨a, l, e, _⟩ | ⟨_, _, e⟩
    · rw [hn] at e; cases e
    · rw [onList_iff hi, e]; simp

/-- A new area for 16 byte cells and three operations on it. -/
example : ∃ st, newArea (fun _ => 7) 16 1024 100000 8192 = some st ∧ (alloc st).2 = some 1024 ∧
    (alloc (alloc st).1).2 = some 1040 ∧ (alloc (free (alloc (alloc st).1).1 1024)).2 = some 1024 := by
  refine ⟨(newArea (fun _ => 7) 16 1024 100000 8192).get (by decide +kernel), by simp, ?_, ?_, ?_⟩ <;> decide +kernel

/-! ## C12 -/

/-- Chunks taken from a segment of size `ss` whose first `sf` bytes hold the header: any sequence of requests, of any sizes; the
third argument is `free` of the header, the chunks are listed with offset and requested size, last first. -/
inductive Chunks (sf ss : Nat) : List (Nat × Nat) → Nat → Prop
  | start : Chunks sf ss [] sf
  | take {l : List (Nat × Nat)} {f f' a n : Nat} : Chunks sf ss l f → allocChunk f ss n = some (a, f') → Chunks sf ss ((a, n) :: l) f'
  | fail {l : List (Nat × Nat)} {f n : Nat} : Chunks sf ss l f → allocChunk f ss n = none → Chunks sf ss l f

/-- `n` rounded up to a multiple of 8. -/
def up8 (n : Nat) : Nat := (n + 7) / 8 * 8

/-- `wg_database_freesize`, Db/dballoc.c lines 1454-1458 (`free` never exceeds `size`). -/
def freesize (free size : Nat) : Nat := if size - free < MINSUB then 0 else size - free

theorem allocChunk_eq {f ss n a f' : Nat} (h8 : f % 8 = 0) (h : allocChunk f ss n = some (a, f')) : a = f ∧ f' = f + up8 n ∧ f' < ss := by
  unfold allocChunk at h
  simp only at h
  split_ifs at h with h1 h2 h3 h4
  all_goals
    injection h with h; injection h with e1 e2
    unfold up8
    omega

/-- Chunks are aligned, inside the segment behind the header, and disjoint. -/
theorem C12_disjoint {sf ss f : Nat} {l : List (Nat × Nat)} (h8 : sf % 8 = 0) (hs : sf ≤ ss) (h : Chunks sf ss l f) :
    (∀ c ∈ l, c.1 % 8 = 0 ∧ sf ≤ c.1 ∧ c.1 + c.2 ≤ f) ∧ f ≤ ss ∧ l.Pairwise (fun c d => Apart c.1 c.2 d.1 d.2) ∧
    f = sf + (l.map (fun c => up8 c.2)).sum := by
  have key : f % 8 = 0 ∧ (∀ c ∈ l, c.1 % 8 = 0 ∧ sf ≤ c.1 ∧ c.1 + c.2 ≤ f) ∧ sf ≤ f ∧ f ≤ ss ∧ l.Pairwise (fun c d => Apart c.1 c.2 d.1 d.2) ∧
    f = sf + (l.map (fun c => up8 c.2)).sum := by
    induction h with
    | start => exact ⟨h8, by simp, Nat.le_refl _, hs, by simp, by simp⟩
    | take hc ha ih =>
      rename_i l f f' a n
      obtain ⟨i1, i2, i3, i4, i5, i6⟩ := ih
      obtain ⟨e1, e2, e3⟩ := allocChunk_eq i1 ha
      subst e1
      have hu : n ≤ up8 n ∧ up8 n % 8 = 0 := by unfold up8; omega
      refine ⟨by omega, ?_, by omega, by omega, ?_, ?_⟩
      · intro c hc
        rcases List.mem_cons.1 hc with rfl | hc
        · exact ⟨i1, i3, by simp only; omega⟩
        · have := i2 c hc; omega
      · rw [List.pairwise_cons]
        exact ⟨fun d hd => .inr (i2 d hd).2.2, i5⟩
      · rw [List.map_cons, List.sum_cons]; simp only; omega
    | fail _ _ ih => exact ih
  exact ⟨key.2.1, key.2.2.2.1, key.2.2.2.2.1, key.2.2.2.2.2⟩

/-- The reported free size is the segment size minus header and chunks (each rounded up to 8 bytes), or 0 if that is less than
8192; a chunk of that size less 8 can really be had if it is not 0, unless the segment is 2^63 bytes or more. -/
theorem C12_freesize {sf ss f : Nat} {l : List (Nat × Nat)} (h8 : sf % 8 = 0) (hs : sf ≤ ss) (hz : ss < 2^63) (h : Chunks sf ss l f) :
    freesize f ss = (if ss - (sf + (l.map (fun c => up8 c.2)).sum) < 8192 then 0 else ss - (sf + (l.map (fun c => up8 c.2)).sum)) ∧
    (freesize f ss ≠ 0 → ∀ n, n + 8 ≤ freesize f ss → ∃ f', allocChunk f ss n = some (f, f')) := by
  obtain ⟨_, h2, _, h4⟩ := C12_disjoint h8 hs h
  constructor
  · unfold freesize MINSUB; rw [h4]
  · intro hne n hn
    have e : freesize f ss = ss - f := by
      unfold freesize at hne ⊢; split_ifs at hne ⊢ with h5
      · exact absurd rfl hne
      · rfl
    have h63 : freesize f ss + f ≤ ss := by omega
    unfold allocChunk
    simp only
    rw [if_neg (by omega)]
    split_ifs <;> first | omega | exact ⟨_, rfl⟩

/-- A chunk request fails only if it does not fit, and then changes nothing. -/
theorem C12_fail {f ss n : Nat} (h8 : f % 8 = 0) (h : allocChunk f ss n = none) : ss ≤ f + up8 n ∨ 2^63 ≤ f + n := by
  unfold allocChunk at h
  simp only at h
  split_ifs at h with h1 h2 h3 h4
  all_goals
    unfold up8
    omega

example : Chunks 1024 100000 [(9224, 8192), (1024, 8197)] 17416 :=
  .take (.take .start (f' := 9224) (by decide)) (by decide)

end WG.Fixlen
