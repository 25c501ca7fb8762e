import Verif.Json.Build
/-! # The callbacks -/
namespace WG.Json
open WG.Recs

variable {C : Prop} {ι : Type} {h h' : Heap} {X : Ix ι} {s0 s s' : Db ι} {k N : Nat} {L : List Word} {A : Alloc ι} {evs : List Ev}

/-- One of the first `N` states of the import in which an allocation fails. -/
def Full (A : Alloc ι) (C : Prop) (X : Ix ι) (s0 : Db ι) (N : Nat) (evs : List Ev) : Prop := ∃ k s, Steps C X s0 k s ∧ k < N ∧ A.Fails evs s

/-- The values waiting on the stack. -/
def loose (st : List Entry) : List Word := st.flatMap (·.elems)

/-- A value may come: the entry is an array, or its key is set. -/
def KeyOK (evs : List Ev) (e : Entry) : Prop := e.arr = true ∨ ∃ kk k', e.key = some kk ∧ 0#8 ∉ kk ∧ Ev.key k' ∈ evs ∧ kk <+: k'

structure Env (A : Alloc ι) (C : Prop) (X : Ix ι) (s0 : Db ι) (N : Nat) : Prop where
  good : X.Good
  ok : A.Ok
  cells : Cells A C X s0 N

theorem loose_cons (e : Entry) (l : List Entry) : loose (e :: l) = e.elems ++ loose l := by simp [loose]

theorem loose_push (e : Entry) (x : Word) (l : List Entry) : (x :: loose (e :: l)).Perm (loose ({ e with elems := e.elems ++ [x] } :: l)) := by
  simp only [loose_cons, List.append_assoc, List.singleton_append]
  exact List.perm_middle.symm

theorem plain_bits (p : Bool) (b : Word) (fs : List Word) : IsPlain ⟨paramBits p, b, fs⟩ := by
  cases p <;> simp only [IsPlain, paramBits, if_true, Bool.false_eq_true, if_false] <;> decide

theorem LInv.triple (E : Env A C X s0 N) {kw w : Word} (hL : LInv C X s0 k s (kw :: w :: L)) (hk : k + 4 ≤ N) (param : Bool) :
    ∃ s' r, createTriple A X s 0#64 kw w param = some (s', r) ∧ Ext s.h s'.h ∧
      ((r = 0#64 ∧ A.rcd s 3 = none ∧ LInv C X s0 (k + 1) s' []) ∨
       (r ≠ 0#64 ∧ isRecVal r = true ∧ LInv C X s0 (k + 4) s' (r :: L) ∧ ∃ rc, s'.h.recs r = some rc ∧ IsPlain rc ∧ rc.fields = [0#64, kw, w])) := by
  unfold createTriple
  rcases hc : createRecord X s 3 (paramBits param) (A.rcd s 3) with ⟨s1, o⟩
  dsimp only
  rcases hL.null.create E.good E.ok 3 (paramBits param) hc with ⟨rfl, e1, e2, e3⟩ | ⟨e0, e1, e1', e2, e3, e4⟩
  · refine ⟨s1, 0#64, by rw [if_pos rfl], by rw [e2]; exact Ext.refl _, Or.inl ⟨rfl, e1, e3.nil⟩⟩
  · obtain ⟨s2, g1, g2, ⟨b, g3⟩, g4⟩ := LInv.setAll E.good E.ok E.cells (L := L) [0#64, kw, w] [] s1 (k + 1) _ e2 e4 rfl (by simp; omega)
    refine ⟨s2, o, ?_, g4 _ e3 e1', Or.inr ⟨e0, e1, g2, _, g3, plain_bits _ _ _, rfl⟩⟩
    rw [if_neg e0, show ([] : List Word).length = 0 from rfl] at *
    rw [g1]; rfl

theorem LInv.struct (E : Env A C X s0 N) {ws : List Word} (hL : LInv C X s0 k s (ws ++ L)) (hk : k + 1 + ws.length ≤ N) (arr isdoc param : Bool)
    {s1 : Db ι} {o : Word} (hc : createStruct A X s arr ws.length isdoc param = (s1, o)) :
      (o = 0#64 ∧ A.rcd s ws.length = none ∧ Ext s.h s1.h ∧ LInv C X s0 (k + 1) s1 []) ∨
      (o ≠ 0#64 ∧ isRecVal o = true ∧ ∃ s', Json.setAll A X o ws 0 s1 = some (s', true) ∧ Ext s.h s'.h ∧ LInv C X s0 (k + 1 + ws.length) s' (o :: L) ∧
        ∃ rc, s'.h.recs o = some rc ∧ (if arr then IsArr rc else IsObj rc) ∧ rc.fields = ws ∧ rc.isDoc = isdoc) := by
  unfold createStruct at hc
  rcases hL.create E.good E.ok ws.length _ hc with ⟨rfl, e1, e2, e3⟩ | ⟨e0, e1, e1', e2, e3, e4⟩
  · exact Or.inl ⟨rfl, e1, by rw [e2]; exact Ext.refl _, e3.nil⟩
  · obtain ⟨s2, g1, g2, ⟨b, g3⟩, g4⟩ := LInv.setAll E.good E.ok E.cells (L := L) ws [] s1 (k + 1) _ e2 e4 rfl (by omega)
    refine Or.inr ⟨e0, e1, s2, g1, g4 _ e3 e1', g2, _, g3, ?_, rfl, ?_⟩
    · cases arr <;> cases isdoc <;> cases param <;> simp only [if_true, Bool.false_eq_true, if_false, IsArr, IsObj, paramBits] <;> decide
    · cases arr <;> cases isdoc <;> cases param <;> simp only [if_true, Bool.false_eq_true, if_false, Rec.isDoc, paramBits] <;> decide

theorem addLiteral_ok (E : Env A C X s0 N) {c : Ctx ι} {e : Entry} {rest : List Entry} {w : Word} (hs : c.stack = e :: rest)
    (hL : LInv C X s0 k c.db (w :: loose (e :: rest))) (hk : KeyOK evs e) (hb : k + 5 ≤ N) :
    (∃ c', addLiteral A X c w = some (c', false) ∧ Ext c.db.h c'.db.h ∧ (∃ k', LInv C X s0 k' c'.db []) ∧ Full A C X s0 N evs) ∨
    (∃ s' x k', addLiteral A X c w = some ({ c with db := s', stack := { e with elems := e.elems ++ [x] } :: rest }, true) ∧ k' ≤ k + 5 ∧ Ext c.db.h s'.h ∧
      LInv C X s0 k' s' (loose ({ e with elems := e.elems ++ [x] } :: rest)) ∧ (e.arr = true → x = w) ∧
      (e.arr = false → ∃ kk rc kw, e.key = some kk ∧ isRecVal x = true ∧ s'.h.recs x = some rc ∧ IsPlain rc ∧ rc.fields = [0#64, kw, w] ∧ IsStr s'.h kw kk)) := by
  unfold addLiteral
  rw [hs]
  dsimp only
  by_cases ha : e.arr = true
  · rw [if_pos ha]
    refine Or.inr ⟨c.db, w, k, ?_, by omega, Ext.refl _, hL.perm (loose_push e w rest), fun _ => rfl, fun h => by rw [ha] at h; cases h⟩
    simp only [addElem, hs]
  · rw [if_neg ha]
    rcases hk with hk | ⟨kk, k', h1, h2, h3, h4⟩
    · exact absurd hk ha
    rw [h1]
    dsimp only
    obtain ⟨g, kw, e1, e2, e3, e4, e5⟩ := hL.str E.ok h2
    rw [e1]
    dsimp only
    by_cases hi : kw = illegal
    · rw [if_pos hi]
      exact Or.inl ⟨_, rfl, e3, ⟨_, e2.nil⟩, k, c.db, hL.steps, by omega, Or.inr (Or.inr (Or.inr ⟨kk, k', Or.inr h3, h4, e5 hi⟩))⟩
    · rw [if_neg hi]
      obtain ⟨s2, r, g1, g2, g3⟩ := LInv.triple E e2 (by omega) c.param
      rw [g1]
      dsimp only
      rcases g3 with ⟨r0, g3, g4⟩ | ⟨r0, g3, g4, rc, g5, g6, g7⟩
      · rw [if_pos r0]
        exact Or.inl ⟨_, rfl, e3.trans g2, ⟨_, g4⟩, k + 1, _, e2.steps, by omega, Or.inl ⟨3, by omega, g3⟩⟩
      · rw [if_neg r0]
        refine Or.inr ⟨s2, r, k + 1 + 4, ?_, by omega, e3.trans g2, g4.perm (loose_push e r rest), fun h => absurd h ha, fun _ => ?_⟩
        · simp only [addElem, hs, h1]
        · exact ⟨kk, rc, kw, rfl, g3, g5, g6, g7, (e4 hi).mono g2 e2.inv (e2.sok kw (by simp)).live⟩

/-! ## The induction over the text -/

theorem feed_append (A : Alloc ι) (X : Ix ι) : ∀ (a b : List Ev) (c : Ctx ι), feed A X (a ++ b) c = match feed A X a c with
    | none => none
    | some (c', true) => feed A X b c'
    | some (c', false) => some (c', false)
  | [], b, c => rfl
  | ev :: a, b, c => by
    rw [List.cons_append, feed, feed]
    rcases handle A X c ev with _ | ⟨c1, _ | _⟩
    · rfl
    · rfl
    · exact feed_append A X a b c1

/-- The state in front of `m` more calls. -/
structure At (C : Prop) (X : Ix ι) (s0 : Db ι) (N : Nat) (evs : List Ev) (p d : Bool) (k : Nat) (c : Ctx ι) (e : Entry) (rest : List Entry) (m : Nat) : Prop where
  stack : c.stack = e :: rest
  linv : LInv C X s0 k c.db (loose (e :: rest))
  len : rest.length + 1 ≤ 7
  keys : ∀ e' ∈ rest, KeyOK evs e'
  calls : k + (loose (e :: rest)).length + 7 * m ≤ N
  elems : (loose (e :: rest)).length + m ≤ evs.length
  param : c.param = p
  isdoc : c.isdoc = d

/-- What an element of an array or a member of an object is. -/
def Item (h : Heap) (e : Entry) (x : Word) (j : J) : Prop :=
  (e.arr = true → Denotes h x j) ∧
  (e.arr = false → ∃ kk rc kw vw, e.key = some kk ∧ isRecVal x = true ∧ h.recs x = some rc ∧ IsPlain rc ∧ rc.fields = [0#64, kw, vw] ∧ IsStr h kw kk ∧ Denotes h vw j)

/-- The import stops here. -/
def Stops (A : Alloc ι) (C : Prop) (X : Ix ι) (s0 : Db ι) (N : Nat) (evs : List Ev) (l : List Ev) (c : Ctx ι) (deep : Prop) : Prop :=
  ∃ c', feed A X l c = some (c', false) ∧ Ext c.db.h c'.db.h ∧ (∃ k', LInv C X s0 k' c'.db []) ∧ (Full A C X s0 N evs ∨ deep)

theorem Stops.left {a b : List Ev} {c : Ctx ι} {P Q : Prop} (hs : Stops A C X s0 N evs a c P) (hpq : P → Q) : Stops A C X s0 N evs (a ++ b) c Q := by
  obtain ⟨c', e1, e2, e3, e4⟩ := hs
  exact ⟨c', by rw [feed_append, e1], e2, e3, e4.imp id hpq⟩

theorem Stops.right {a b : List Ev} {c c1 : Ctx ι} {P Q : Prop} (hf : feed A X a c = some (c1, true)) (he : Ext c.db.h c1.db.h)
    (hs : Stops A C X s0 N evs b c1 P) (hpq : P → Q) : Stops A C X s0 N evs (a ++ b) c Q := by
  obtain ⟨c', e1, e2, e3, e4⟩ := hs
  exact ⟨c', by rw [feed_append, hf]; exact e1, he.trans e2, e3, e4.imp id hpq⟩

variable {p d : Bool}

/-- A new value is added to the entry on top. -/
theorem At.add (E : Env A C X s0 N) {c c1 : Ctx ι} {e : Entry} {rest : List Entry} {m : Nat} {w : Word} {j : J} {k1 : Nat}
    (ha : At C X s0 N evs p d k c e rest (m + 1)) (hk : KeyOK evs e) (h1 : c1.stack = e :: rest) (h2 : c1.param = p) (h3 : c1.isdoc = d) (h5 : Ext c.db.h c1.db.h)
    (hL : LInv C X s0 k1 c1.db (w :: loose (e :: rest))) (hk1 : k1 ≤ k + 1) (hd : Denotes c1.db.h w j) :
    (∃ c', addLiteral A X c1 w = some (c', false) ∧ Ext c.db.h c'.db.h ∧ (∃ k', LInv C X s0 k' c'.db []) ∧ Full A C X s0 N evs) ∨
    (∃ c' x k', addLiteral A X c1 w = some (c', true) ∧ Ext c.db.h c'.db.h ∧
      At C X s0 N evs p d k' c' { e with elems := e.elems ++ [x] } rest m ∧ Item c'.db.h e x j) := by
  have hcalls := ha.calls
  have helems := ha.elems
  have hlen : (loose ({ e with elems := e.elems ++ [w] } :: rest)).length = (loose (e :: rest)).length + 1 := by
    rw [← (loose_push e w rest).length_eq]; rfl
  rcases addLiteral_ok (evs := evs) E h1 hL hk (by omega) with ⟨c', g1, g2, g3, g4⟩ | ⟨s', x, k', g1, g2, g3, g4, g5, g6⟩
  · exact Or.inl ⟨c', g1, h5.trans g2, g3, g4⟩
  · have hlx : (loose ({ e with elems := e.elems ++ [x] } :: rest)).length = (loose (e :: rest)).length + 1 := by
      rw [← (loose_push e x rest).length_eq]; rfl
    have hd' := hd.mono g3 hL.inv (hL.sok w (by simp)).live
    refine Or.inr ⟨_, x, k', g1, h5.trans g3, ⟨rfl, g4, ha.len, ha.keys, by rw [hlx]; omega, by rw [hlx]; omega, h2, h3⟩, ?_, ?_⟩
    · intro h; rw [g5 h]; exact hd'
    · intro h
      obtain ⟨kk, rc, kw, f1, f2, f3, f4, f5, f6⟩ := g6 h
      exact ⟨kk, rc, kw, w, f1, f2, f3, f4, f5, f6, hd'⟩

theorem upToNul_prefix (s : List Byte) : cut s <+: s := List.takeWhile_prefix _
theorem cut_nul (s : List Byte) : 0#8 ∉ cut s := by
  induction s with
  | nil => simp [cut]
  | cons a t ih =>
    unfold cut at ih ⊢
    rw [List.takeWhile_cons]
    by_cases ha : a = 0#8
    · simp [ha]
    · rw [if_pos (by simpa using ha), List.mem_cons]
      rintro (h | h)
      · exact ha h.symm
      · exact ih h

/-- The result for a value. -/
def ValOK (A : Alloc ι) (C : Prop) (X : Ix ι) (s0 : Db ι) (N : Nat) (evs : List Ev) (p d : Bool) (v : J) : Prop :=
  ∀ (c : Ctx ι) (k : Nat) (e : Entry) (rest : List Entry) (m : Nat), At C X s0 N evs p d k c e rest (v.events.length + m) → KeyOK evs e → (∀ x ∈ v.events, x ∈ evs) →
    Stops A C X s0 N evs v.events c (7 < rest.length + 1 + v.depth) ∨
    ∃ c' k', feed A X v.events c = some (c', true) ∧ Ext c.db.h c'.db.h ∧ rest.length + 1 + v.depth ≤ 7 ∧
      ((v.dropped = true ∧ At C X s0 N evs p d k' c' e rest m) ∨
       (v.dropped = false ∧ ∃ x, At C X s0 N evs p d k' c' { e with elems := e.elems ++ [x] } rest m ∧ Item c'.db.h e x v.kept))

def ArrOK (A : Alloc ι) (C : Prop) (X : Ix ι) (s0 : Db ι) (N : Nat) (evs : List Ev) (p d : Bool) (l : JArr) : Prop :=
  ∀ (c : Ctx ι) (k : Nat) (e : Entry) (rest : List Entry) (m : Nat), At C X s0 N evs p d k c e rest (l.events.length + m) → e.arr = true → (∀ x ∈ l.events, x ∈ evs) →
    Stops A C X s0 N evs l.events c (7 < rest.length + 1 + l.depth) ∨
    ∃ c' k' xs, feed A X l.events c = some (c', true) ∧ Ext c.db.h c'.db.h ∧ rest.length + 1 + l.depth ≤ 7 ∧
      At C X s0 N evs p d k' c' { e with elems := e.elems ++ xs } rest m ∧ DenotesArr c'.db.h xs l.kept

def ObjOK (A : Alloc ι) (C : Prop) (X : Ix ι) (s0 : Db ι) (N : Nat) (evs : List Ev) (p d : Bool) (o : JObj) : Prop :=
  ∀ (c : Ctx ι) (k : Nat) (e : Entry) (rest : List Entry) (m : Nat), At C X s0 N evs p d k c e rest (o.events.length + m) → e.arr = false → (∀ x ∈ o.events, x ∈ evs) →
    Stops A C X s0 N evs o.events c (7 < rest.length + 1 + o.depth) ∨
    ∃ c' k' xs key, feed A X o.events c = some (c', true) ∧ Ext c.db.h c'.db.h ∧ rest.length + 1 + o.depth ≤ 7 ∧
      At C X s0 N evs p d k' c' { e with elems := e.elems ++ xs, key := key } rest m ∧ DenotesObj c'.db.h xs o.kept

theorem At.more {c : Ctx ι} {e : Entry} {rest : List Entry} {m m' : Nat} (ha : At C X s0 N evs p d k c e rest m) (hm : m' ≤ m) : At C X s0 N evs p d k c e rest m' :=
  ⟨ha.stack, ha.linv, ha.len, ha.keys, by have := ha.calls; omega, by have := ha.elems; omega, ha.param, ha.isdoc⟩

/-- One call that adds a value which has been encoded. -/
theorem literal_ok (E : Env A C X s0 N) {c : Ctx ι} {e : Entry} {rest : List Entry} {m : Nat} {ev : Ev} {j : J} {h1 : Heap} {w : Word}
    (ha : At C X s0 N evs p d k c e rest (1 + m)) (hk : KeyOK evs e)
    (he : handle A X c ev = if w = illegal then some ({ c with db := ⟨h1, c.db.ix⟩ }, false) else addLiteral A X { c with db := ⟨h1, c.db.ix⟩ } w)
    (hL : LInv C X s0 (k + 1) ⟨h1, c.db.ix⟩ (w :: loose (e :: rest))) (hx : Ext c.db.h h1) (hd : w ≠ illegal → Denotes h1 w j) (hf : w = illegal → A.Fails evs c.db) :
    Stops A C X s0 N evs [ev] c (7 < rest.length + 1 + 0) ∨
    ∃ c' k', feed A X [ev] c = some (c', true) ∧ Ext c.db.h c'.db.h ∧ rest.length + 1 + 0 ≤ 7 ∧
      ∃ x, At C X s0 N evs p d k' c' { e with elems := e.elems ++ [x] } rest m ∧ Item c'.db.h e x j := by
  have hcalls := ha.calls
  by_cases hw : w = illegal
  · rw [if_pos hw] at he
    exact Or.inl ⟨_, by rw [feed, he], hx, ⟨_, hL.nil⟩, Or.inl ⟨k, c.db, ha.linv.steps, by omega, hf hw⟩⟩
  · rw [if_neg hw] at he
    rcases At.add (m := m) (c1 := { c with db := ⟨h1, c.db.ix⟩ }) E (ha.more (by omega)) hk ha.stack ha.param ha.isdoc hx hL (by omega) (hd hw) with ⟨c', g1, g2, g3, g4⟩ | ⟨c', x, k', g1, g2, g3, g4⟩
    · exact Or.inl ⟨c', by rw [feed, he, g1], g2, g3, Or.inl g4⟩
    · exact Or.inr ⟨c', k', by simp only [feed, he, g1], g2, ha.len, x, g3, g4⟩

/-- The end of an array or object inside another one. -/
theorem pop_ok (E : Env A C X s0 N) {c : Ctx ι} {e e1 : Entry} {rest : List Entry} {m : Nat} {j : J}
    (ha : At C X s0 N evs p d k c e1 (e :: rest) (1 + m)) (hd : ∀ h rc o, isRecVal o = true → h.recs o = some rc → (if e1.arr then IsArr rc else IsObj rc) → rc.fields = e1.elems →
      Ext c.db.h h → Denotes h o j) :
    (∃ c', pop A X c = some (c', false) ∧ Ext c.db.h c'.db.h ∧ (∃ k', LInv C X s0 k' c'.db []) ∧ Full A C X s0 N evs) ∨
    ∃ c' k', pop A X c = some (c', true) ∧ Ext c.db.h c'.db.h ∧
      ∃ x, At C X s0 N evs p d k' c' { e with elems := e.elems ++ [x] } rest m ∧ Item c'.db.h e x j := by
  have hcalls := ha.calls
  have helems := ha.elems
  have hk := ha.keys e (by simp)
  have hlen : (loose (e1 :: e :: rest)).length = e1.elems.length + (loose (e :: rest)).length := by rw [loose_cons, List.length_append]
  unfold pop
  rw [ha.stack]
  dsimp only
  rcases hc : createStruct A X c.db e1.arr e1.elems.length ((e :: rest).isEmpty && c.isdoc) c.param with ⟨s1, o⟩
  have hl := ha.linv
  rw [loose_cons] at hl
  rcases hl.struct E (by omega) _ _ _ hc with ⟨rfl, f1, f2, f3⟩ | ⟨f0, f1, s2, f2, f3, f4, rc, f5, f6, f7, f8⟩
  · rw [if_pos rfl]
    exact Or.inl ⟨_, rfl, f2, ⟨_, f3⟩, k, c.db, ha.linv.steps, by omega, Or.inl ⟨_, by omega, f1⟩⟩
  · rw [if_neg f0, f2]
    dsimp only
    rw [if_neg (by simp), if_pos rfl]
    rcases addLiteral_ok (evs := evs) (c := { c with db := s2, stack := e :: rest }) E rfl f4 hk (by omega) with ⟨c', g1, g2, g3, g4⟩ | ⟨s', x, k', g1, g2, g3, g4, g5, g6⟩
    · exact Or.inl ⟨c', g1, f3.trans g2, g3, g4⟩
    · have hlx : (loose ({ e with elems := e.elems ++ [x] } :: rest)).length = (loose (e :: rest)).length + 1 := by
        rw [← (loose_push e x rest).length_eq]; rfl
      have hd' := (hd s2.h rc o f1 f5 f6 f7 f3).mono g3 f4.inv (f4.sok o (by simp)).live
      have hlen2 := ha.len
      simp only [List.length_cons] at hlen2
      refine Or.inr ⟨_, k', g1, f3.trans g3, x, ⟨rfl, g4, by omega, fun e' he' => ha.keys e' (by simp [he']), by rw [hlx]; omega, by rw [hlx]; omega, ha.param, ha.isdoc⟩, ?_, ?_⟩
      · intro h; rw [g5 h]; exact hd'
      · intro h
        obtain ⟨kk, rc, kw, f1, f2, f3, f4, f5, f6⟩ := g6 h
        exact ⟨kk, rc, kw, o, f1, f2, f3, f4, f5, f6, hd'⟩

theorem elems_live {c : Ctx ι} {e : Entry} {rest : List Entry} {m : Nat} (ha : At C X s0 N evs p d k c e rest m) {w : Word} (hw : w ∈ e.elems) : LiveS c.db.h w :=
  (ha.linv.sok w (by rw [loose_cons]; simp [hw])).live

/-- A nested array or object: push, its contents, pop. -/
theorem nested_ok (E : Env A C X s0 N) {c : Ctx ι} {e : Entry} {rest : List Entry} {m dep : Nat} {arr : Bool} {l : List Ev} {j : J} {open_ close : Ev}
    (ho : ∀ c : Ctx ι, handle A X c open_ = some (push c arr)) (hcl : ∀ c : Ctx ι, handle A X c close = pop A X c)
    (ha : At C X s0 N evs p d k c e rest ((open_ :: l ++ [close]).length + m)) (hk : KeyOK evs e)
    (hin : ∀ c1, c1.db = c.db → At C X s0 N evs p d k c1 ⟨arr, [], none⟩ (e :: rest) (l.length + (1 + m)) →
      Stops A C X s0 N evs l c1 (7 < (e :: rest).length + 1 + dep) ∨
      ∃ c' k' xs key, feed A X l c1 = some (c', true) ∧ Ext c1.db.h c'.db.h ∧ (e :: rest).length + 1 + dep ≤ 7 ∧
        At C X s0 N evs p d k' c' ⟨arr, xs, key⟩ (e :: rest) (1 + m) ∧
        ∀ h rc o, isRecVal o = true → h.recs o = some rc → (if arr then IsArr rc else IsObj rc) → rc.fields = xs → Ext c'.db.h h → Denotes h o j) :
    Stops A C X s0 N evs (open_ :: l ++ [close]) c (7 < rest.length + 1 + (dep + 1)) ∨
    ∃ c' k', feed A X (open_ :: l ++ [close]) c = some (c', true) ∧ Ext c.db.h c'.db.h ∧ rest.length + 1 + (dep + 1) ≤ 7 ∧
      ∃ x, At C X s0 N evs p d k' c' { e with elems := e.elems ++ [x] } rest m ∧ Item c'.db.h e x j := by
  by_cases hf : maxDepth ≤ c.stack.length
  · have hp : handle A X c open_ = some (c, false) := by rw [ho, push, if_pos hf]
    rw [ha.stack] at hf
    simp only [maxDepth, List.length_cons] at hf
    exact Or.inl ⟨c, by rw [List.cons_append, feed, hp], Ext.refl _, ⟨k, ha.linv.nil⟩, Or.inr (by omega)⟩
  · have hp : handle A X c open_ = some ({ c with stack := ⟨arr, [], none⟩ :: c.stack }, true) := by rw [ho, push, if_neg hf]
    rw [ha.stack] at hf hp
    simp only [maxDepth, List.length_cons] at hf
    have hcalls := ha.calls
    have helems := ha.elems
    simp only [List.cons_append, List.length_cons, List.length_append, List.length_nil] at hcalls helems
    have hl : loose (⟨arr, [], none⟩ :: e :: rest) = loose (e :: rest) := by rw [loose_cons]; rfl
    have h1 : At C X s0 N evs p d k { c with stack := ⟨arr, [], none⟩ :: e :: rest } ⟨arr, [], none⟩ (e :: rest) (l.length + (1 + m)) :=
      ⟨rfl, by rw [hl]; exact ha.linv, by simp only [List.length_cons]; omega, by
        intro e' he'
        rcases List.mem_cons.1 he' with rfl | he'
        · exact hk
        · exact ha.keys e' he', by rw [hl]; omega, by rw [hl]; omega, ha.param, ha.isdoc⟩
    have hopen : feed A X [open_] c = some ({ c with stack := ⟨arr, [], none⟩ :: e :: rest }, true) := by simp only [feed, hp]
    rcases hin { c with stack := ⟨arr, [], none⟩ :: e :: rest } rfl h1 with hs | ⟨c2, k2, xs, key, g1, g2, g3, g4, g5⟩
    · left
      have := Stops.left (b := [close]) (Stops.right (a := [open_]) hopen (Ext.refl _) hs id) (Q := 7 < rest.length + 1 + (dep + 1))
        (by simp only [List.length_cons]; omega)
      simpa using this
    · have hfeed : feed A X (open_ :: l) c = some (c2, true) := by rw [feed, hp]; exact g1
      rcases pop_ok E g4 g5 with ⟨c3, f1, f2, f3, f4⟩ | ⟨c3, k3, f1, f2, f3⟩
      · left
        refine Stops.right (a := open_ :: l) hfeed g2 (P := False) ⟨c3, by rw [feed, hcl, f1], f2, f3, Or.inl f4⟩ False.elim
      · right
        refine ⟨c3, k3, by rw [feed_append, hfeed]; simp only [feed, hcl, f1], g2.trans f2, ?_, f3⟩
        simp only [List.length_cons] at g3; omega

mutual
theorem val_ok (E : Env A C X s0 N) : ∀ v : J, ValOK A C X s0 N evs p d v
  | .null => fun c k e rest m ha _ _ => Or.inr ⟨c, k, rfl, Ext.refl _, ha.len, Or.inl ⟨rfl, ha.more (by omega)⟩⟩
  | .bool b => fun c k e rest m ha _ _ => Or.inr ⟨c, k, rfl, Ext.refl _, ha.len, Or.inl ⟨rfl, ha.more (by omega)⟩⟩
  | .int v => by
    intro c k e rest m ha hk hev
    rcases he : encInt c.db.h v (A.int c.db) with ⟨h1, w⟩
    obtain ⟨g1, g2, g3, g4⟩ := ha.linv.int E.ok v he
    rcases literal_ok (ev := .int v) (m := m) (j := .int v) E ha hk (by rw [handle, he]) g1 g2 g3 (fun h => Or.inr (Or.inl (g4 h))) with h | ⟨c', k', h1, h2, h3, x, h4, h5⟩
    · exact Or.inl h
    · exact Or.inr ⟨c', k', h1, h2, h3, Or.inr ⟨rfl, x, h4, h5⟩⟩
  | .dbl v => by
    intro c k e rest m ha hk hev
    rcases he : encDouble c.db.h v (A.dbl c.db) with ⟨h1, w⟩
    obtain ⟨g1, g2, g3, g4⟩ := ha.linv.dbl E.ok v he
    rcases literal_ok (ev := .dbl v) (m := m) (j := .dbl v) E ha hk (by rw [handle, he]) g1 g2 g3 (fun h => Or.inr (Or.inr (Or.inl (g4 h)))) with h | ⟨c', k', h1, h2, h3, x, h4, h5⟩
    · exact Or.inl h
    · exact Or.inr ⟨c', k', h1, h2, h3, Or.inr ⟨rfl, x, h4, h5⟩⟩
  | .str t => by
    intro c k e rest m ha hk hev
    obtain ⟨h1, w, he, g1, g2, g3, g4⟩ := ha.linv.str E.ok (cut_nul t)
    rcases literal_ok (ev := .str t) (m := m) (j := .str (upToNul t)) E ha hk (by rw [handle, he]) g1 g2 g3
      (fun h => Or.inr (Or.inr (Or.inr ⟨_, t, Or.inl (hev _ (by simp [J.events])), upToNul_prefix t, g4 h⟩))) with h | ⟨c', k', h1, h2, h3, x, h4, h5⟩
    · exact Or.inl h
    · exact Or.inr ⟨c', k', h1, h2, h3, Or.inr ⟨rfl, x, h4, h5⟩⟩
  | .arr l => by
    intro c k e rest m ha hk hev
    refine Or.imp id ?_ (nested_ok (arr := true) (dep := l.depth) (l := l.events) (j := .arr l.kept) (m := m) (open_ := .startArr) (close := .endArr) E (fun _ => rfl) (fun _ => rfl) ha hk ?_)
    · rintro ⟨c', k', h1, h2, h3, x, h4, h5⟩
      exact ⟨c', k', h1, h2, h3, Or.inr ⟨rfl, x, h4, h5⟩⟩
    · intro c1 _ hc1
      rcases arr_ok E l c1 k _ _ _ hc1 rfl (fun x hx => hev x (by simp [J.events, hx])) with h | ⟨c', k', xs, h1, h2, h3, h4, h5⟩
      · exact Or.inl h
      · refine Or.inr ⟨c', k', xs, none, h1, h2, h3, h4, ?_⟩
        intro h rc o e1 e2 e3 e4 e5
        rw [Denotes]
        refine ⟨e1, rc, e2, e3, ?_⟩
        rw [e4]
        exact h5.mono e5 h4.linv.inv (fun w hw => elems_live h4 hw)
  | .obj o => by
    intro c k e rest m ha hk hev
    refine Or.imp id ?_ (nested_ok (arr := false) (dep := o.depth) (l := o.events) (j := .obj o.kept) (m := m) (open_ := .startMap) (close := .endMap) E (fun _ => rfl) (fun _ => rfl) ha hk ?_)
    · rintro ⟨c', k', h1, h2, h3, x, h4, h5⟩
      exact ⟨c', k', h1, h2, h3, Or.inr ⟨rfl, x, h4, h5⟩⟩
    · intro c1 _ hc1
      rcases obj_ok E o c1 k _ _ _ hc1 rfl (fun x hx => hev x (by simp [J.events, hx])) with h | ⟨c', k', xs, key, h1, h2, h3, h4, h5⟩
      · exact Or.inl h
      · refine Or.inr ⟨c', k', xs, key, h1, h2, h3, h4, ?_⟩
        intro h rc o e1 e2 e3 e4 e5
        rw [Denotes]
        refine ⟨e1, rc, e2, e3, ?_⟩
        rw [e4]
        exact h5.mono e5 h4.linv.inv
theorem arr_ok (E : Env A C X s0 N) : ∀ l : JArr, ArrOK A C X s0 N evs p d l
  | .nil => fun c k e rest m ha _ _ => Or.inr ⟨c, k, [], rfl, Ext.refl _, ha.len, by
      have := ha.more (m' := m) (by omega)
      simpa using this, rfl⟩
  | .cons v l => by
    intro c k e rest m ha harr hev
    simp only [JArr.events, List.length_append, JArr.depth] at *
    have hev1 : ∀ x ∈ v.events, x ∈ evs := fun x hx => hev x (by simp [hx])
    have hev2 : ∀ x ∈ l.events, x ∈ evs := fun x hx => hev x (by simp [hx])
    rcases val_ok E v c k e rest (l.events.length + m) (ha.more (by omega)) (Or.inl harr) hev1 with hs | ⟨c1, k1, h1, h2, h3, h4⟩
    · exact Or.inl (hs.left (by omega))
    · rcases h4 with ⟨hd, h4⟩ | ⟨hd, x, h4, h5⟩
      · rcases arr_ok E l c1 k1 e rest m h4 harr hev2 with hs | ⟨c2, k2, xs, g1, g2, g3, g4, g5⟩
        · exact Or.inl (hs.right h1 h2 (by omega))
        · refine Or.inr ⟨c2, k2, xs, by rw [feed_append, h1]; exact g1, h2.trans g2, by omega, g4, ?_⟩
          rw [JArr.kept, hd, if_pos rfl]; exact g5
      · rcases arr_ok E l c1 k1 _ rest m h4 harr hev2 with hs | ⟨c2, k2, xs, g1, g2, g3, g4, g5⟩
        · exact Or.inl (hs.right h1 h2 (by omega))
        · refine Or.inr ⟨c2, k2, x :: xs, by rw [feed_append, h1]; exact g1, h2.trans g2, by omega, by simpa using g4, ?_⟩
          rw [JArr.kept, hd, if_neg (by simp), DenotesArr]
          exact ⟨x, xs, rfl, (h5.1 harr).mono g2 h4.linv.inv (elems_live h4 (by simp)), g5⟩
theorem obj_ok (E : Env A C X s0 N) : ∀ o : JObj, ObjOK A C X s0 N evs p d o
  | .nil => fun c k e rest m ha _ _ => Or.inr ⟨c, k, [], e.key, rfl, Ext.refl _, ha.len, by
      have := ha.more (m' := m) (by omega)
      simpa using this, rfl⟩
  | .cons key v o => by
    intro c k e rest m ha harr hev
    simp only [JObj.events, List.length_append, List.cons_append, List.length_cons, JObj.depth] at *
    have hev0 : Ev.key key ∈ evs := hev _ (by simp)
    have hev1 : ∀ x ∈ v.events, x ∈ evs := fun x hx => hev x (by simp [hx])
    have hev2 : ∀ x ∈ o.events, x ∈ evs := fun x hx => hev x (by simp [hx])
    obtain ⟨e0, he0⟩ : ∃ e0 : Entry, e0 = { e with key := some ((cut key).take 79) } := ⟨_, rfl⟩
    obtain ⟨c0, hc0⟩ : ∃ c0 : Ctx ι, c0 = { c with stack := e0 :: rest } := ⟨_, rfl⟩
    have hkey : feed A X [.key key] c = some (c0, true) := by
      rw [feed, handle, addKey, ha.stack, hc0, he0]; rfl
    have hx0 : Ext c.db.h c0.db.h := by rw [hc0]; exact Ext.refl _
    have hk0 : KeyOK evs e0 := Or.inr ⟨_, key, by rw [he0], fun h => cut_nul key (List.mem_of_mem_take h), hev0, (List.take_prefix _ _).trans (upToNul_prefix key)⟩
    have ha0 : At C X s0 N evs p d k c0 e0 rest (v.events.length + (o.events.length + m)) := by
      have h1 := (ha.more (m' := v.events.length + (o.events.length + m)) (by omega))
      have hl : loose (e0 :: rest) = loose (e :: rest) := by rw [he0, loose_cons, loose_cons]
      exact ⟨by rw [hc0], by rw [hl, hc0]; exact h1.linv, h1.len, h1.keys, by rw [hl]; exact h1.calls, by rw [hl]; exact h1.elems, by rw [hc0]; exact h1.param, by rw [hc0]; exact h1.isdoc⟩
    have harr0 : e0.arr = false := by rw [he0]; exact harr
    have happ : ∀ (a b : List Ev), Ev.key key :: (a ++ b) = [Ev.key key] ++ (a ++ b) := fun _ _ => rfl
    have hfd : ∀ c1, feed A X v.events c0 = some (c1, true) → feed A X ([Ev.key key] ++ v.events) c = some (c1, true) := by
      intro c1 h; rw [feed_append, hkey]; exact h
    rcases val_ok E v c0 k e0 rest (o.events.length + m) ha0 hk0 hev1 with hs | ⟨c1, k1, h1, h2, h3, h4⟩
    · rw [happ]
      exact Or.inl (Stops.right hkey hx0 (hs.left id) (by omega))
    · rcases h4 with ⟨hd, h4⟩ | ⟨hd, x, h4, h5⟩
      · rcases obj_ok E o c1 k1 e0 rest m h4 harr0 hev2 with hs | ⟨c2, k2, xs, key2, g1, g2, g3, g4, g5⟩
        · rw [happ]
          exact Or.inl (Stops.right hkey hx0 (hs.right h1 h2 id) (by omega))
        · refine Or.inr ⟨c2, k2, xs, key2, by rw [happ, feed_append, hkey]; dsimp only; rw [feed_append, h1]; exact g1, hx0.trans (h2.trans g2), by omega, by rw [he0] at g4; exact g4, ?_⟩
          rw [JObj.kept, hd, if_pos rfl]; exact g5
      · rcases obj_ok E o c1 k1 _ rest m h4 harr0 hev2 with hs | ⟨c2, k2, xs, key2, g1, g2, g3, g4, g5⟩
        · rw [happ]
          exact Or.inl (Stops.right hkey hx0 (hs.right h1 h2 id) (by omega))
        · refine Or.inr ⟨c2, k2, x :: xs, key2, by rw [happ, feed_append, hkey]; dsimp only; rw [feed_append, h1]; exact g1, hx0.trans (h2.trans g2), by omega, by rw [he0] at g4; simpa using g4, ?_⟩
          rw [JObj.kept, hd, if_neg (by simp), DenotesObj]
          obtain ⟨kk, rc, kw, vw, f1, f2, f3, f4, f5, f6, f7⟩ := h5.2 harr0
          obtain ⟨b, f3'⟩ := g2.recs _ _ f3
          have hkk : kk = (upToNul key).take 79 := by rw [he0] at f1; simpa [upToNul, cut] using f1.symm
          subst hkk
          exact ⟨x, xs, _, kw, vw, rfl, f2, f3', f4, f5, f6.mono g2 h4.linv.inv (field_live h4.linv.inv f3 (by rw [f5]; simp)),
            f7.mono g2 h4.linv.inv (field_live h4.linv.inv f3 (by rw [f5]; simp)), g5⟩
end

end WG.Json
