import Verif.Locks.Tfqueue
import Mathlib.Tactic.SplitIfs
import Mathlib.Tactic.Tauto
/-! Invariant of the queue lock. -/
namespace WG

/-- The nodes of `q` are doubly linked in this order; `p` precedes the first and `e` follows the last. -/
def QChain (nd : Nat → QNode) : Nat → List Nat → Nat → Prop
  | _, [], _ => True
  | p, a :: r, e => (nd a).prev = p ∧ (nd a).next = r.headD e ∧ QChain nd a r e

theorem QChain.append {nd : Nat → QNode} {l1 l2 : List Nat} {p e : Nat} :
    QChain nd p (l1 ++ l2) e ↔ QChain nd p l1 (l2.headD e) ∧ QChain nd (l1.getLastD p) l2 e := by
  induction l1 generalizing p with
  | nil => simp [QChain]
  | cons a r ih =>
    cases r with
    | nil => simp [QChain, and_assoc]
    | cons b r =>
      have h := ih (p := a)
      simp only [List.cons_append, QChain] at h ⊢
      rw [h]
      simp only [List.getLastD_cons, List.headD_cons]
      tauto

theorem QChain.congr {nd nd' : Nat → QNode} {q : List Nat} {p e : Nat} (h : QChain nd p q e)
    (heq : ∀ x ∈ q, (nd' x).prev = (nd x).prev ∧ (nd' x).next = (nd x).next) : QChain nd' p q e := by
  induction q generalizing p with
  | nil => trivial
  | cons a r ih =>
    obtain ⟨h1, h2, h3⟩ := h
    have ha := heq a (by simp)
    exact ⟨ha.1.trans h1, ha.2.trans h2, ih h3 (fun x hx => heq x (by simp [hx]))⟩

/-- Changing the end: only the last node's `next` changes. -/
theorem QChain.setEnd {nd nd' : Nat → QNode} {l : List Nat} {x p e e' : Nat} (h : QChain nd p (l ++ [x]) e)
    (hnd : x ∉ l) (hx : (nd' x).prev = (nd x).prev ∧ (nd' x).next = e')
    (heq : ∀ y, y ∈ l → (nd' y).prev = (nd y).prev ∧ (nd' y).next = (nd y).next) :
    QChain nd' p (l ++ [x]) e' := by
  rw [QChain.append] at h ⊢
  exact ⟨h.1.congr heq, hx.1.trans h.2.1, hx.2, trivial⟩

/-- Changing the start: only the first node's `prev` changes. -/
theorem QChain.setStart {nd nd' : Nat → QNode} {l : List Nat} {b p p' e : Nat} (h : QChain nd p (b :: l) e)
    (hb : (nd' b).prev = p' ∧ (nd' b).next = (nd b).next)
    (heq : ∀ y, y ∈ l → (nd' y).prev = (nd y).prev ∧ (nd' y).next = (nd y).next) :
    QChain nd' p' (b :: l) e :=
  ⟨hb.1, hb.2.trans h.2.1, h.2.2.congr heq⟩

/-- Links part of the invariant: `q` is the queue from head to tail. -/
structure QLinks (m : QMem) (q : List Nat) : Prop where
  chain : QChain m.nodes 0 q 0
  nodup : q.Nodup
  nz : 0 ∉ q
  fnodup : m.free.Nodup
  fnz : 0 ∉ m.free
  disj : ∀ x ∈ m.free, x ∉ q
  tail : m.tail = q.getLastD 0

/-- Lock part: `g` are the granted nodes, `w` the waiting ones. -/
structure QGrant (m : QMem) (g w : List Nat) : Prop where
  granted : ∀ a ∈ g, (m.nodes a).waiting = false
  waits : ∀ a ∈ w, (m.nodes a).waiting = true
  kind : (∃ a, g = [a]) ∨ ∀ a ∈ g, (m.nodes a).cls = .read
  head : g = [] → w = []
  sorted : (g ++ w).Pairwise (fun a b => (m.nodes a).tick < (m.nodes b).tick)
  past : ∀ a ∈ g ++ w, (m.nodes a).tick < m.clock

theorem QLinks.split {m : QMem} {l1 l2 : List Nat} {a : Nat} (h : QLinks m (l1 ++ a :: l2)) :
    (m.nodes a).prev = l1.getLastD 0 ∧ (m.nodes a).next = l2.headD 0 := by
  have := QChain.append.1 h.chain
  exact ⟨this.2.1, this.2.2.1⟩

theorem headD_mem {l : List Nat} (h : l.headD 0 ≠ 0) : l.headD 0 ∈ l := by
  cases l with
  | nil => simp at h
  | cons a r => simp

theorem getLastD_mem {l : List Nat} (h : l.getLastD 0 ≠ 0) : l.getLastD 0 ∈ l := by
  cases l with
  | nil => simp at h
  | cons a r => rw [List.getLastD_cons]; cases r with
    | nil => simp
    | cons b r => rw [List.getLastD_cons]; exact List.mem_cons_of_mem _ (by
        have : (List.getLastD r b) = (b :: r).getLast (by simp) := by
          rw [List.getLast_eq_getLastD]
        rw [this]; exact List.getLast_mem _)

theorem getLastD_append (l1 l2 : List Nat) (d : Nat) : (l1 ++ l2).getLastD d = l2.getLastD (l1.getLastD d) := by
  induction l1 generalizing d with
  | nil => rfl
  | cons a r ih => rw [List.cons_append, List.getLastD_cons, List.getLastD_cons, ih]

/-- Unlinking a node of the queue: links are right, class, waiting flag and tick of all nodes unchanged. -/
theorem unlink_spec {m : QMem} {l1 l2 : List Nat} {a : Nat} (h : QLinks m (l1 ++ a :: l2)) :
    QLinks ((m.unlink a).freeNode a) (l1 ++ l2) ∧
    (∀ x, ((m.unlink a).nodes x).waiting = (m.nodes x).waiting ∧ ((m.unlink a).nodes x).cls = (m.nodes x).cls ∧
      ((m.unlink a).nodes x).tick = (m.nodes x).tick) ∧ (m.unlink a).clock = m.clock ∧
    (m.unlink a).free = m.free := by
  obtain ⟨hp, hn⟩ := h.split
  have hnd := h.nodup
  have hnd' : (l1 ++ l2).Nodup := by
    rw [List.nodup_append] at hnd ⊢
    exact ⟨hnd.1, (List.nodup_cons.1 hnd.2.1).2, fun x hx y hy => hnd.2.2 x hx y (by simp [hy])⟩
  have ha12 : a ∉ l1 ++ l2 := by
    rw [List.nodup_append] at hnd
    rw [List.mem_append]
    rintro (h1 | h2)
    · exact hnd.2.2 a h1 a (by simp) rfl
    · exact (List.nodup_cons.1 hnd.2.1).1 h2
  have hdis : ∀ x ∈ l1, x ∉ l2 := by
    intro x h1 h2
    rw [List.nodup_append] at hnd
    exact hnd.2.2 x h1 x (by simp [h2]) rfl
  have hnz : (0 : Nat) ∉ l1 ++ l2 := by
    have := h.nz
    simp only [List.mem_append, List.mem_cons, not_or] at this ⊢
    exact ⟨this.1, this.2.2⟩
  have ha0 : a ≠ 0 := by
    have := h.nz
    simp only [List.mem_append, List.mem_cons, not_or] at this
    exact fun h => this.2.1 h.symm
  have hfields : (∀ x, ((m.unlink a).nodes x).waiting = (m.nodes x).waiting ∧ ((m.unlink a).nodes x).cls = (m.nodes x).cls ∧
      ((m.unlink a).nodes x).tick = (m.nodes x).tick) ∧ (m.unlink a).clock = m.clock ∧ (m.unlink a).free = m.free := by
    refine ⟨fun x => ?_, ?_, ?_⟩
    · simp only [QMem.unlink, QMem.upd]
      split <;> split <;> (try split) <;> (try simp only []) <;> (repeat' split) <;> simp_all
    · simp only [QMem.unlink, QMem.upd]
      split <;> split <;> (try split) <;> rfl
    · simp only [QMem.unlink, QMem.upd]
      split <;> split <;> (try split) <;> rfl
  refine ⟨?_, hfields⟩
  -- prev and next of the nodes after unlinking
  have hnext : ∀ x, ((m.unlink a).nodes x).next = if l1.getLastD 0 ≠ 0 ∧ x = l1.getLastD 0 then l2.headD 0 else (m.nodes x).next := by
    intro x
    simp only [QMem.unlink, QMem.upd, hp, hn]
    by_cases c1 : l1.getLastD 0 = 0 <;> by_cases c2 : l2.headD 0 = 0 <;> simp only [c1, c2, ne_eq, not_true, not_false_eq_true, if_true, if_false, false_and, true_and]
    · split <;> rfl
    · split
      · rename_i hx; subst hx; rfl
      · rfl
    · split
      · simp only []; split <;> simp_all
      · simp only []; split <;> simp_all
    · by_cases hx : x = l2.headD 0
      · have hne : x ≠ l1.getLastD 0 := fun h => hdis _ (getLastD_mem c1) (h ▸ hx ▸ headD_mem c2)
        have hne' : l2.headD 0 ≠ l1.getLastD 0 := hx ▸ hne
        simp only [hx, hne', if_true, if_false]
      · simp only [hx, if_false]; split <;> simp_all
  have hprev : ∀ x, ((m.unlink a).nodes x).prev = if l2.headD 0 ≠ 0 ∧ x = l2.headD 0 then l1.getLastD 0 else (m.nodes x).prev := by
    intro x
    simp only [QMem.unlink, QMem.upd, hp, hn]
    by_cases c1 : l1.getLastD 0 = 0 <;> by_cases c2 : l2.headD 0 = 0 <;> simp only [c1, c2, ne_eq, not_true, not_false_eq_true, if_true, if_false, false_and, true_and]
    · split <;> rfl
    · split <;> simp_all
    · split
      · simp only []; split <;> simp_all
      · simp only []; split <;> simp_all
    · by_cases hx : x = l2.headD 0
      · simp only [hx, if_true]
      · simp only [hx, if_false]; split <;> simp_all
  have htail : (m.unlink a).tail = if l2.headD 0 = 0 then l1.getLastD 0 else m.tail := by
    have ht := h.tail
    rw [getLastD_append, List.getLastD_cons] at ht
    simp only [QMem.unlink, QMem.upd, hp, hn]
    by_cases c2 : l2.headD 0 = 0
    · have hl2 : l2 = [] := by
        cases l2 with
        | nil => rfl
        | cons b r => simp at c2; subst c2; exact absurd (by simp) hnz
      subst hl2
      simp only [List.getLastD_nil] at ht
      by_cases c1 : l1.getLastD 0 = 0 <;> simp only [c1, ht, List.headD_nil, ne_eq, not_true, not_false_eq_true, if_true, if_false]
    · by_cases c1 : l1.getLastD 0 = 0 <;> simp only [c1, c2, ne_eq, not_true, not_false_eq_true, if_true, if_false]
  obtain ⟨hc1, hc2⟩ := QChain.append.1 h.chain
  have hc2' : QChain m.nodes a l2 0 := hc2.2.2
  refine ⟨?_, hnd', hnz, ?_, ?_, ?_, ?_⟩
  · show QChain (m.unlink a).nodes 0 (l1 ++ l2) 0
    rw [QChain.append]
    constructor
    · rcases List.eq_nil_or_concat l1 with hl | ⟨l1', p, hl⟩
      · subst hl; trivial
      · rw [List.concat_eq_append] at hl
        subst hl
        have hplast : (l1' ++ [p]).getLastD 0 = p := by rw [getLastD_append]; simp
        have hp0 : p ≠ 0 := by rintro rfl; exact hnz (by simp)
        have hpl : p ∉ l1' := by
          have := (List.nodup_append.1 (List.nodup_append.1 hnd').1).2.2
          exact fun hx => this p hx p (by simp) rfl
        refine QChain.setEnd hc1 hpl ⟨?_, ?_⟩ ?_
        · rw [hprev, if_neg]
          rintro ⟨c, hx⟩
          exact hdis p (by simp) (hx ▸ headD_mem c)
        · rw [hnext, hplast, if_pos ⟨hp0, rfl⟩]
        · intro y hy
          refine ⟨?_, ?_⟩
          · rw [hprev, if_neg]
            rintro ⟨c, hx⟩
            exact hdis y (by simp [hy]) (hx ▸ headD_mem c)
          · rw [hnext, hplast, if_neg]
            rintro ⟨_, hx⟩
            exact hpl (hx ▸ hy)
    · cases l2 with
      | nil => trivial
      | cons b r =>
        have hb0 : b ≠ 0 := by rintro rfl; exact hnz (by simp)
        have hnl : ∀ y ∈ b :: r, ((m.unlink a).nodes y).next = (m.nodes y).next := by
          intro y hy
          rw [hnext, if_neg]
          rintro ⟨c, hx⟩
          exact hdis y (hx ▸ getLastD_mem c) hy
        have hbr : b ∉ r := (List.nodup_cons.1 (List.nodup_append.1 hnd').2.1).1
        refine QChain.setStart hc2' ⟨?_, hnl b (by simp)⟩ ?_
        · rw [hprev, if_pos]; exact ⟨by simpa using hb0, by simp⟩
        · intro y hy
          refine ⟨?_, hnl y (by simp [hy])⟩
          rw [hprev, if_neg]
          rintro ⟨_, hx⟩
          simp at hx
          exact hbr (hx ▸ hy)
  · show (a :: (m.unlink a).free).Nodup
    rw [hfields.2.2, List.nodup_cons]
    exact ⟨fun hx => h.disj a hx (by simp), h.fnodup⟩
  · show 0 ∉ a :: (m.unlink a).free
    rw [hfields.2.2]
    simp only [List.mem_cons, not_or]
    exact ⟨fun h => ha0 h.symm, h.fnz⟩
  · show ∀ x ∈ a :: (m.unlink a).free, x ∉ l1 ++ l2
    rw [hfields.2.2]
    intro x hx
    rcases List.mem_cons.1 hx with h1 | h1
    · rw [h1]; exact ha12
    · intro h2
      refine h.disj x h1 ?_
      simp only [List.mem_append, List.mem_cons] at h2 ⊢
      tauto
  · show (m.unlink a).tail = _
    rw [htail, getLastD_append, h.tail, getLastD_append, List.getLastD_cons]
    cases l2 with
    | nil => simp
    | cons b r =>
      have hb0 : b ≠ 0 := by rintro rfl; exact hnz (by simp)
      rw [List.getLastD_cons, List.getLastD_cons, if_neg (by simpa using hb0)]

/-! ## Sections -/

/-- The invariant of the lock memory; `q` is the queue. -/
def QInv (m : QMem) (q : List Nat) : Prop := QLinks m q ∧ ∃ g w, q = g ++ w ∧ QGrant m g w

/-- Class and tick of all nodes are unchanged; waiting flags too except that of `syn`, which is cleared. -/
def SameNodes (m m' : QMem) (syn : Option Nat) : Prop :=
  m'.clock = m.clock ∧ ∀ x, (m'.nodes x).cls = (m.nodes x).cls ∧ (m'.nodes x).tick = (m.nodes x).tick ∧
    (m'.nodes x).waiting = if syn = some x then false else (m.nodes x).waiting

/-- Setting `waiting := false`. -/
def QMem.grant (m : QMem) (b : Nat) : QMem := m.upd b (fun x => { x with waiting := false })

theorem grant_links {m : QMem} {q : List Nat} (b : Nat) (h : QLinks m q) : QLinks (m.grant b) q := by
  refine ⟨h.chain.congr ?_, h.nodup, h.nz, h.fnodup, h.fnz, h.disj, h.tail⟩
  intro x _
  simp only [QMem.grant, QMem.upd]
  split
  · rename_i hx; subst hx; exact ⟨rfl, rfl⟩
  · exact ⟨rfl, rfl⟩

theorem grant_same (m : QMem) (b : Nat) : SameNodes m (m.grant b) (some b) := by
  refine ⟨rfl, fun x => ?_⟩
  simp only [QMem.grant, QMem.upd]
  by_cases h : x = b
  · subst h; simp
  · have h' : ¬ b = x := fun e => h e.symm
    simp [h, h']

theorem unlink_same {m : QMem} {l1 l2 : List Nat} {a : Nat} (h : QLinks m (l1 ++ a :: l2)) :
    SameNodes m (m.timeout a) none := by
  obtain ⟨_, h1, h2, _⟩ := unlink_spec h
  exact ⟨h2, fun x => ⟨(h1 x).2.1, (h1 x).2.2, by rw [if_neg (by simp)]; exact (h1 x).1⟩⟩

theorem SameNodes.trans {m1 m2 m3 : QMem} {o : Option Nat} (h1 : SameNodes m1 m2 none) (h2 : SameNodes m2 m3 o) :
    SameNodes m1 m3 o := by
  refine ⟨h2.1.trans h1.1, fun x => ?_⟩
  obtain ⟨a, b, c⟩ := h1.2 x
  obtain ⟨a', b', c'⟩ := h2.2 x
  refine ⟨a'.trans a, b'.trans b, ?_⟩
  rw [c', c]; simp

theorem QGrant.sorted_sub {m m' : QMem} {g w g' w' : List Nat} {o : Option Nat} (h : QGrant m g w) (hs : SameNodes m m' o)
    (hsub : (g' ++ w').Sublist (g ++ w)) :
    (g' ++ w').Pairwise (fun a b => (m'.nodes a).tick < (m'.nodes b).tick) ∧
    ∀ a ∈ g' ++ w', (m'.nodes a).tick < m'.clock := by
  constructor
  · have := h.sorted.sublist hsub
    refine this.imp ?_
    intro a b hab
    rw [(hs.2 a).2.1, (hs.2 b).2.1]; exact hab
  · intro a ha
    rw [(hs.2 a).2.1, hs.1]
    exact h.past a (hsub.subset ha)

/-- Removing a waiting node. -/
theorem timeout_spec {m : QMem} {q : List Nat} {a : Nat} (h : QInv m q) (ha : a ∈ q)
    (hw : (m.nodes a).waiting = true) :
    QInv (m.timeout a) (q.erase a) ∧ SameNodes m (m.timeout a) none := by
  obtain ⟨hl, g, w, rfl, hg⟩ := h
  have haw : a ∈ w := by
    rcases List.mem_append.1 ha with h1 | h1
    · have := hg.granted a h1; rw [hw] at this; cases this
    · exact h1
  have hag : a ∉ g := fun h1 => by have := hg.granted a h1; rw [hw] at this; cases this
  obtain ⟨w1, w2, rfl⟩ := List.append_of_mem haw
  have haw1 : a ∉ w1 := by
    have := hl.nodup
    rw [List.nodup_append, List.nodup_append] at this
    exact fun hx => this.2.1.2.2 a hx a (by simp) rfl
  have heq : (g ++ (w1 ++ a :: w2)).erase a = g ++ (w1 ++ w2) := by
    rw [List.erase_append_right _ hag, List.erase_append_right _ haw1, List.erase_cons_head]
  have hl' : QLinks m ((g ++ w1) ++ a :: w2) := by rw [List.append_assoc]; exact hl
  have hu := unlink_spec hl'
  have hs := unlink_same hl'
  rw [heq]
  refine ⟨⟨by rw [← List.append_assoc]; exact hu.1, g, w1 ++ w2, rfl, ?_⟩, hs⟩
  have hsub : (g ++ (w1 ++ w2)).Sublist (g ++ (w1 ++ a :: w2)) :=
    (List.Sublist.refl g).append ((List.Sublist.refl w1).append (List.sublist_cons_self a w2))
  have h2 := hg.sorted_sub (g' := g) (w' := w1 ++ w2) hs hsub
  refine ⟨?_, ?_, ?_, ?_, h2.1, h2.2⟩
  · intro x hx; rw [(hs.2 x).2.2]; simpa using hg.granted x hx
  · intro x hx; rw [(hs.2 x).2.2]
    have : x ∈ w1 ++ a :: w2 := by
      rcases List.mem_append.1 hx with h | h <;> simp [h]
    simpa using hg.waits x this
  · rcases hg.kind with h | h
    · exact Or.inl h
    · exact Or.inr (fun x hx => by rw [(hs.2 x).1]; exact h x hx)
  · intro h; have := hg.head h; simp at this

/-- rulock on a granted reader's node. -/
theorem runlock_spec {m : QMem} {q : List Nat} {a : Nat} (h : QInv m q) (ha : a ∈ q)
    (hw : (m.nodes a).waiting = false) :
    QInv (m.runlock a).1 (q.erase a) ∧ SameNodes m (m.runlock a).1 (m.runlock a).2 ∧
    ∀ b, (m.runlock a).2 = some b → b ∈ q.erase a := by
  obtain ⟨hl, g, w, rfl, hg⟩ := h
  have hag : a ∈ g := by
    rcases List.mem_append.1 ha with h1 | h1
    · exact h1
    · have := hg.waits a h1; rw [hw] at this; cases this
  obtain ⟨g1, g2, rfl⟩ := List.append_of_mem hag
  have hnd := hl.nodup
  have hag1 : a ∉ g1 := by
    rw [List.nodup_append, List.nodup_append] at hnd
    exact fun hx => hnd.1.2.2 a hx a (by simp) rfl
  have heq : ((g1 ++ a :: g2) ++ w).erase a = (g1 ++ g2) ++ w := by
    rw [List.append_assoc, List.erase_append_right _ hag1, List.cons_append, List.erase_cons_head, List.append_assoc]
  have hl' : QLinks m (g1 ++ a :: (g2 ++ w)) := by
    have := hl; rw [List.append_assoc, List.cons_append] at this; exact this
  obtain ⟨hpv, hnx⟩ := hl'.split
  have hu := unlink_spec hl'
  have hs := unlink_same hl'
  rw [heq]
  have hsub : ((g1 ++ g2) ++ w).Sublist ((g1 ++ a :: g2) ++ w) :=
    ((List.Sublist.refl g1).append (List.sublist_cons_self a g2)).append (List.Sublist.refl w)
  have hnz : ∀ x ∈ g1 ++ (g2 ++ w), x ≠ 0 := by
    rintro x hx rfl; exact hu.1.nz hx
  have hsn : ∀ x, (((m.unlink a).nodes x).waiting = (m.nodes x).waiting) := fun x => (hu.2.1 x).1
  have hsc : ∀ x, (((m.unlink a).nodes x).cls = (m.nodes x).cls) := fun x => (hu.2.1 x).2.1
  unfold QMem.runlock
  simp only [hsn, hsc]
  split
  · rename_i hc
    obtain ⟨hn0, hnw, hor⟩ := hc
    -- the next node waits, so it is the first of w and g2 is empty
    have hg2 : g2 = [] := by
      cases g2 with
      | nil => rfl
      | cons b r =>
        simp only [hnx, List.cons_append, List.headD_cons] at hnw
        have := hg.granted b (by simp)
        rw [this] at hnw; cases hnw
    subst hg2
    cases w with
    | nil => simp [hnx] at hn0
    | cons b w' =>
      simp only [List.nil_append, List.headD_cons] at hnx
      rw [hnx] at hn0 hnw hor ⊢
      have hsame : SameNodes m ((m.timeout a).grant b) (some b) := hs.trans (grant_same _ b)
      have hlk : QLinks ((m.timeout a).grant b) (g1 ++ (b :: w')) := grant_links b hu.1
      have hcongr : ((m.unlink a).upd b (fun x => { x with waiting := false })).freeNode a = (m.timeout a).grant b := rfl
      refine ⟨⟨by rw [hcongr]; simpa using hlk, g1 ++ [b], w', by simp, ?_⟩, by rw [hcongr]; exact hsame, ?_⟩
      · rw [hcongr]
        have h2 := hg.sorted_sub (g' := g1 ++ [b]) (w' := w') hsame (by simpa using hsub)
        refine ⟨?_, ?_, ?_, by simp, h2.1, h2.2⟩
        · intro x hx
          rw [(hsame.2 x).2.2]
          rcases List.mem_append.1 hx with h | h
          · split
            · rfl
            · exact hg.granted x (by simp [h])
          · simp at h; subst h; simp
        · intro x hx
          rw [(hsame.2 x).2.2, if_neg]
          · exact hg.waits x (by simp [hx])
          · intro h
            obtain rfl := Option.some.inj h
            have := hu.1.nodup
            rw [List.nodup_append] at this
            exact (List.nodup_cons.1 this.2.1).1 hx
        · rcases hor with h | h
          · left
            rw [hpv] at h
            have : g1 = [] := by
              rcases List.eq_nil_or_concat g1 with h' | ⟨l, p, h'⟩
              · exact h'
              · rw [List.concat_eq_append] at h'
                subst h'
                rw [getLastD_append] at h
                simp at h
                exact absurd h (hnz p (by simp))
            subst this; exact ⟨b, rfl⟩
          · rcases hg.kind with ⟨x, hx⟩ | hx
            · have : g1 = [] := by
                cases g1 with
                | nil => rfl
                | cons y r => simp at hx
              subst this; exact Or.inl ⟨b, rfl⟩
            · right
              intro x hxm
              rw [(hsame.2 x).1]
              rcases List.mem_append.1 hxm with h' | h'
              · exact hx x (by simp [h'])
              · simp at h'; subst h'; exact h
      · intro b' hb'
        simp at hb'; subst hb'; simp
  · rename_i hc
    have hcongr : (m.unlink a).freeNode a = m.timeout a := rfl
    refine ⟨⟨by rw [hcongr, List.append_assoc]; exact hu.1, g1 ++ g2, w, rfl, ?_⟩, by rw [hcongr]; exact hs, by simp⟩
    rw [hcongr]
    have h2 := hg.sorted_sub (g' := g1 ++ g2) (w' := w) hs hsub
    refine ⟨?_, ?_, ?_, ?_, h2.1, h2.2⟩
    · intro x hx
      rw [(hs.2 x).2.2]
      have : x ∈ g1 ++ a :: g2 := by rcases List.mem_append.1 hx with h | h <;> simp [h]
      simpa using hg.granted x this
    · intro x hx
      rw [(hs.2 x).2.2]; simpa using hg.waits x hx
    · right
      rcases hg.kind with ⟨x, hx⟩ | hx
      · have : g1 = [] ∧ g2 = [] := by
          cases g1 with
          | nil => simp at hx; exact ⟨rfl, hx.2⟩
          | cons y r => simp at hx
        rw [this.1, this.2]; simp
      · intro x hxm
        rw [(hs.2 x).1]
        apply hx
        rcases List.mem_append.1 hxm with h | h <;> simp [h]
    · intro he
      rw [List.append_eq_nil_iff] at he
      obtain ⟨rfl, rfl⟩ := he
      cases w with
      | nil => rfl
      | cons b w' =>
        exfalso
        apply hc
        simp only [List.nil_append, List.headD_cons] at hnx
        rw [hnx]
        exact ⟨hnz b (by simp), hg.waits b (by simp), Or.inl (by rw [hpv]; rfl)⟩

/-- wulock on the head of the queue is rulock's section with the same conditions (when the next one waits). -/
theorem wunlock_spec {m : QMem} {q : List Nat} {a : Nat} (h : QInv m q) (ha : a ∈ q)
    (hw : (m.nodes a).waiting = false) (hc : (m.nodes a).cls = .write) :
    QInv (m.wunlock a).1 (q.erase a) ∧ SameNodes m (m.wunlock a).1 (m.wunlock a).2 ∧
    ∀ b, (m.wunlock a).2 = some b → b ∈ q.erase a := by
  have key : m.wunlock a = m.runlock a := by
    obtain ⟨hl, g, w, rfl, hg⟩ := h
    have hag : a ∈ g := by
      rcases List.mem_append.1 ha with h1 | h1
      · exact h1
      · have := hg.waits a h1; rw [hw] at this; cases this
    have hga : g = [a] := by
      rcases hg.kind with ⟨x, hx⟩ | hx
      · subst hx; simp at hag; rw [hag]
      · have := hx a hag; rw [hc] at this; cases this
    subst hga
    have hl' : QLinks m ([] ++ a :: w) := hl
    obtain ⟨hpv, hnx⟩ := hl'.split
    simp only [List.getLastD_nil] at hpv
    have hu := unlink_spec hl'
    have hsn : ∀ x, (((m.unlink a).nodes x).waiting = (m.nodes x).waiting) := fun x => (hu.2.1 x).1
    unfold QMem.runlock
    simp only [hsn]
    unfold QMem.wunlock
    cases w with
    | nil =>
      simp only [List.headD_nil] at hnx
      simp [hnx, hpv, QMem.unlink]
      split <;> rfl
    | cons b w' =>
      simp only [List.headD_cons] at hnx
      have hb0 : b ≠ 0 := by rintro rfl; exact hl.nz (by simp)
      have hbw := hg.waits b (by simp)
      simp only [hnx, hpv, hbw]
      rw [if_pos hb0, if_pos ⟨hb0, by trivial, Or.inl (by trivial)⟩]
      simp only [QMem.unlink, hpv, hnx, ne_eq, not_true, if_false, hb0, not_false_eq_true, if_true]
      simp only [QMem.upd, QMem.freeNode, if_true]
      congr 2
      funext x
      split <;> rfl
  rw [key]; exact runlock_spec h ha hw

/-- The section of rlock after waking up. -/
theorem cascade_spec {m : QMem} {q : List Nat} {a : Nat} (h : QInv m q) (ha : a ∈ q)
    (hw : (m.nodes a).waiting = false) (hc : (m.nodes a).cls = .read) :
    QInv (m.cascade a).1 q ∧ SameNodes m (m.cascade a).1 (m.cascade a).2 ∧
    ∀ b, (m.cascade a).2 = some b → b ∈ q := by
  obtain ⟨hl, g, w, rfl, hg⟩ := h
  have hag : a ∈ g := by
    rcases List.mem_append.1 ha with h1 | h1
    · exact h1
    · have := hg.waits a h1; rw [hw] at this; cases this
  obtain ⟨g1, g2, rfl⟩ := List.append_of_mem hag
  have hl' : QLinks m (g1 ++ a :: (g2 ++ w)) := by
    have := hl; rw [List.append_assoc, List.cons_append] at this; exact this
  obtain ⟨hpv, hnx⟩ := hl'.split
  unfold QMem.cascade
  simp only []
  split
  · rename_i hcond
    obtain ⟨hn0, hnc, hnw⟩ := hcond
    have hg2 : g2 = [] := by
      cases g2 with
      | nil => rfl
      | cons b r =>
        simp only [hnx, List.cons_append, List.headD_cons] at hnw
        have := hg.granted b (by simp)
        rw [this] at hnw; cases hnw
    subst hg2
    cases w with
    | nil => simp [hnx] at hn0
    | cons b w' =>
      simp only [List.nil_append, List.headD_cons] at hnx
      rw [hnx] at hn0 hnw hnc ⊢
      have hsame := grant_same m b
      have hcongr : m.upd b (fun x => { x with waiting := false }) = m.grant b := rfl
      rw [hcongr]
      refine ⟨⟨grant_links b hl, g1 ++ a :: [b], w', by simp, ?_⟩, hsame, ?_⟩
      · have h2 := hg.sorted_sub (g' := g1 ++ a :: [b]) (w' := w') hsame (by simp)
        refine ⟨?_, ?_, ?_, by simp, h2.1, h2.2⟩
        · intro x hx
          rw [(hsame.2 x).2.2]
          split
          · rfl
          · rename_i hxb
            apply hg.granted x
            simp only [List.mem_append, List.mem_cons, List.not_mem_nil, or_false] at hx ⊢
            rcases hx with h | h | h
            · exact Or.inl h
            · exact Or.inr h
            · exact absurd (by rw [h]) hxb
        · intro x hx
          rw [(hsame.2 x).2.2, if_neg]
          · exact hg.waits x (by simp [hx])
          · intro h
            obtain rfl := Option.some.inj h
            have := hl.nodup
            rw [List.nodup_append] at this
            exact (List.nodup_cons.1 this.2.1).1 hx
        · right
          intro x hxm
          rw [(hsame.2 x).1]
          simp only [List.mem_append, List.mem_cons, List.not_mem_nil, or_false] at hxm
          rcases hg.kind with ⟨y, hy⟩ | hy
          · have : g1 = [] := by
              cases g1 with
              | nil => rfl
              | cons z r => simp at hy
            subst this
            rcases hxm with h | h | h
            · simp at h
            · rw [h]; exact hc
            · rw [h]; exact hnc
          · rcases hxm with h | h | h
            · exact hy x (by simp [h])
            · rw [h]; exact hc
            · rw [h]; exact hnc
      · intro b' hb'
        simp at hb'; subst hb'; simp
  · exact ⟨⟨hl, _, _, rfl, hg⟩, ⟨rfl, fun x => ⟨rfl, rfl, by simp⟩⟩, by simp⟩

/-- The section of a lock call. -/
theorem enqueue_spec {m m' : QMem} {q : List Nat} {a : Nat} {c : QCls} (h : QInv m q)
    (he : m.enqueue c = some (a, m')) :
    QInv m' (q ++ [a]) ∧ a ∉ q ∧ (m'.nodes a).cls = c ∧ (m'.nodes a).tick = m.clock ∧
    (∀ x, x ≠ a → (m'.nodes x).cls = (m.nodes x).cls ∧ (m'.nodes x).tick = (m.nodes x).tick ∧
      (m'.nodes x).waiting = (m.nodes x).waiting) ∧ a ∈ m.free := by
  obtain ⟨hl, g, w, rfl, hg⟩ := h
  unfold QMem.enqueue at he
  cases hf : m.free with
  | nil => rw [hf] at he; cases he
  | cons a0 rest =>
    rw [hf] at he
    have haq : a0 ∉ g ++ w := hl.disj a0 (by simp [hf])
    have ha0 : a0 ≠ 0 := by rintro rfl; exact hl.fnz (by simp [hf])
    have hfn := hl.fnodup
    rw [hf, List.nodup_cons] at hfn
    -- common part: given the final memory
    have main : ∀ wt : Bool,
        (m.tail ≠ 0 → wt = match c with
          | .write => true
          | .read => !((m.nodes m.tail).cls == .read && !(m.nodes m.tail).waiting)) →
        (m.tail = 0 → wt = false) →
        (∀ M : QMem, M.free = rest → M.tail = a0 → M.clock = m.clock + 1 →
          (∀ x, x ≠ a0 → (M.nodes x).cls = (m.nodes x).cls ∧ (M.nodes x).tick = (m.nodes x).tick ∧
            (M.nodes x).waiting = (m.nodes x).waiting ∧ (M.nodes x).prev = (m.nodes x).prev ∧
            (M.nodes x).next = if m.tail ≠ 0 ∧ x = m.tail then a0 else (m.nodes x).next) →
          (M.nodes a0).cls = c → (M.nodes a0).tick = m.clock → (M.nodes a0).prev = m.tail → (M.nodes a0).next = 0 →
          (M.nodes a0).waiting = wt → QInv M ((g ++ w) ++ [a0])) := by
      intro wt hwt1 hwt2 M hMf hMt hMc hMx hMa1 hMa2 hMa3 hMa4 hMa5
      have hmem : ∀ x ∈ g ++ w, x ≠ a0 := fun x hx h => haq (h ▸ hx)
      have hlinks : QLinks M ((g ++ w) ++ [a0]) := by
        refine ⟨?_, ?_, ?_, ?_, ?_, ?_, ?_⟩
        · rw [QChain.append]
          refine ⟨?_, ?_, ?_, trivial⟩
          · rcases List.eq_nil_or_concat (g ++ w) with h' | ⟨l, p, h'⟩
            · rw [h']; trivial
            · rw [List.concat_eq_append] at h'
              have hlast : m.tail = p := by rw [hl.tail, h', getLastD_append]; rfl
              have hp0 : p ≠ 0 := by rintro rfl; exact hl.nz (by rw [h']; simp)
              have hpl : p ∉ l := by
                have := hl.nodup; rw [h', List.nodup_append] at this
                exact fun hx => this.2.2 p hx p (by simp) rfl
              have hch := hl.chain
              rw [h'] at hch hmem ⊢
              refine QChain.setEnd hch hpl ?_ ?_
              · have := hMx p (hmem p (by simp))
                refine ⟨this.2.2.2.1, ?_⟩
                rw [this.2.2.2.2, hlast, if_pos ⟨hp0, rfl⟩]; rfl
              · intro y hy
                have := hMx y (hmem y (by simp [hy]))
                refine ⟨this.2.2.2.1, ?_⟩
                rw [this.2.2.2.2, hlast, if_neg]
                rintro ⟨_, rfl⟩; exact hpl hy
          · rw [hMa3, hl.tail]
          · rw [hMa4]; rfl
        · rw [List.nodup_append]
          refine ⟨hl.nodup, by simp, ?_⟩
          intro x hx y hy
          simp at hy; subst hy; exact hmem x hx
        · simp only [List.mem_append, List.mem_singleton, not_or]
          have := hl.nz
          simp only [List.mem_append, not_or] at this
          exact ⟨this, fun h => ha0 h.symm⟩
        · rw [hMf]; exact hfn.2
        · rw [hMf]; exact fun h => hl.fnz (by rw [hf]; simp [h])
        · rw [hMf]
          intro x hx
          rw [List.mem_append, List.mem_singleton]
          rintro (h | h)
          · exact hl.disj x (by rw [hf]; simp [hx]) h
          · subst h; exact hfn.1 hx
        · rw [hMt, getLastD_append]; rfl
      refine ⟨hlinks, ?_⟩
      have htick : ((g ++ w) ++ [a0]).Pairwise (fun a b => (M.nodes a).tick < (M.nodes b).tick) ∧
          ∀ x ∈ (g ++ w) ++ [a0], (M.nodes x).tick < M.clock := by
        have hp : ∀ x ∈ g ++ w, (M.nodes x).tick < m.clock := by
          intro x hx; rw [(hMx x (hmem x hx)).2.1]; exact hg.past x hx
        constructor
        · rw [List.pairwise_append]
          refine ⟨?_, by simp, ?_⟩
          · refine List.Pairwise.imp_of_mem ?_ hg.sorted
            intro x y hx hy hxy
            rw [(hMx x (hmem x hx)).2.1, (hMx y (hmem y hy)).2.1]; exact hxy
          · intro x hx y hy
            simp at hy; subst hy
            rw [hMa2]; exact hp x hx
        · intro x hx
          rw [hMc]
          rcases List.mem_append.1 hx with h | h
          · have := hp x h; omega
          · simp at h; subst h; rw [hMa2]; omega
      have hwx : ∀ x ∈ g ++ w, (M.nodes x).waiting = (m.nodes x).waiting ∧ (M.nodes x).cls = (m.nodes x).cls :=
        fun x hx => ⟨(hMx x (hmem x hx)).2.2.1, (hMx x (hmem x hx)).1⟩
      cases wt with
      | true =>
        refine ⟨g, w ++ [a0], by simp, ?_, ?_, ?_, ?_, by simpa using htick.1, by simpa using htick.2⟩
        · intro x hx; rw [(hwx x (by simp [hx])).1]; exact hg.granted x hx
        · intro x hx
          rcases List.mem_append.1 hx with h | h
          · rw [(hwx x (by simp [h])).1]; exact hg.waits x h
          · simp at h; subst h; exact hMa5
        · rcases hg.kind with h | h
          · exact Or.inl h
          · exact Or.inr (fun x hx => by rw [(hwx x (by simp [hx])).2]; exact h x hx)
        · intro h
          exfalso
          have := hg.head h
          subst h; subst this
          have : m.tail = 0 := hl.tail
          exact absurd (hwt2 this) (by simp)
      | false =>
        -- granted at once: queue empty, or a reader behind a granted reader
        have hcase : (g ++ w = []) ∨ (w = [] ∧ c = .read ∧ ∀ x ∈ g, (m.nodes x).cls = .read) := by
          by_cases ht : m.tail = 0
          · left
            rcases List.eq_nil_or_concat (g ++ w) with h' | ⟨l, p, h'⟩
            · exact h'
            · rw [List.concat_eq_append] at h'
              exfalso
              have : m.tail = p := by rw [hl.tail, h', getLastD_append]; rfl
              rw [ht] at this
              exact hl.nz (by rw [h', this]; simp)
          · right
            have h3 := hwt1 ht
            cases c with
            | write => simp at h3
            | read =>
              simp at h3
              have htm : m.tail ∈ g ++ w := by rw [hl.tail]; exact getLastD_mem (by rw [← hl.tail]; exact ht)
              have hwnil : w = [] := by
                rcases List.eq_nil_or_concat w with h' | ⟨l, p, h'⟩
                · exact h'
                · exfalso
                  rw [List.concat_eq_append] at h'
                  have : m.tail = p := by
                    rw [hl.tail, h', ← List.append_assoc, getLastD_append]; rfl
                  have hpw := hg.waits p (by rw [h']; simp)
                  rw [← this, h3.2] at hpw; cases hpw
              refine ⟨hwnil, rfl, ?_⟩
              rcases hg.kind with ⟨y, hy⟩ | hy
              · subst hwnil; subst hy
                simp at htm
                intro x hx; simp at hx; subst hx; rw [← htm]; exact h3.1
              · exact hy
        have hwnil : w = [] := by
          rcases hcase with h | h
          · exact (List.append_eq_nil_iff.1 h).2
          · exact h.1
        subst hwnil
        refine ⟨g ++ [a0], [], by simp, ?_, by simp, ?_, by simp, by simpa using htick.1, by simpa using htick.2⟩
        · intro x hx
          rcases List.mem_append.1 hx with h | h
          · rw [(hwx x (by simp [h])).1]; exact hg.granted x h
          · simp at h; subst h; exact hMa5
        · rcases hcase with h | ⟨_, hc, h⟩
          · left; simp at h; subst h; exact ⟨a0, rfl⟩
          · right
            intro x hx
            rcases List.mem_append.1 hx with h' | h'
            · rw [(hwx x (by simp [h'])).2]; exact h x h'
            · simp at h'; subst h'; rw [hMa1, hc]
    simp only [] at he
    by_cases ht : m.tail = 0
    · rw [if_neg (by simpa using ht)] at he
      obtain ⟨rfl, rfl⟩ := Prod.mk.inj (Option.some.inj he)
      have hx : ∀ x, x ≠ a0 → (if x = a0 then ({ (m.nodes a0) with cls := c, prev := m.tail, next := 0, tick := m.clock, waiting := false } : QNode) else m.nodes x) = m.nodes x := by
        intro x hx; rw [if_neg hx]
      refine ⟨main false (fun h => absurd ht h) (fun _ => rfl) _ rfl rfl rfl ?_ ?_ ?_ ?_ ?_ ?_, haq, ?_, ?_, ?_, by simp⟩
      · intro x hx
        simp [QMem.upd, hx, ht]
      all_goals first
        | (simp [QMem.upd]; done)
        | (intro x hx; simp [QMem.upd, hx])
    · rw [if_pos (by simpa using ht)] at he
      obtain ⟨rfl, rfl⟩ := Prod.mk.inj (Option.some.inj he)
      have hta : m.tail ≠ a0 := by
        intro h
        apply haq
        rw [← h, hl.tail]; exact getLastD_mem (by rw [← hl.tail]; exact ht)
      refine ⟨main _ (fun _ => ?_) (fun h => absurd h ht) _ rfl rfl rfl ?_ ?_ ?_ ?_ ?_ rfl, haq, ?_, ?_, ?_, by simp⟩
      · cases c <;> simp [QMem.upd, hta]
      · intro x hx
        by_cases hxt : x = m.tail
        · subst hxt; simp [QMem.upd, hx, ht]
        · simp [QMem.upd, hx, hxt]
      all_goals first
        | (simp [QMem.upd, hta.symm]; done)
        | (intro x hx; by_cases hxt : x = m.tail <;> simp [QMem.upd, hx, hxt, hta])

end WG
