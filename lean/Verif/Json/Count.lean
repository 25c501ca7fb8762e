import Verif.Json.Safe
/-! # How much an import allocates: `k` calls take at most `k` objects of each kind -/
namespace WG.Json
open WG.Recs

variable {C : Prop} {ι : Type} {h h' h1 h2 : Heap} {X : Ix ι} {s0 s s' : Db ι} {k N n : Nat}

/-- At most `n` addresses are in use. -/
def Dom {α : Type} (f : Word → Option α) (n : Nat) : Prop := ∃ l : List Word, l.length ≤ n ∧ ∀ w, f w ≠ none → w ∈ l

theorem Dom.mono {α β : Type} {f : Word → Option α} {g : Word → Option β} {m : Nat} (hd : Dom f n) (hg : ∀ w, g w ≠ none → f w ≠ none) (hm : n ≤ m) : Dom g m := by
  obtain ⟨l, h1, h2⟩ := hd
  exact ⟨l, h1.trans hm, fun w hw => h2 w (hg w hw)⟩

theorem Dom.one {α β : Type} {f : Word → Option α} {g : Word → Option β} (a : Word) (hd : Dom f n) (hg : ∀ w, g w ≠ none → w = a ∨ f w ≠ none) : Dom g (n + 1) := by
  obtain ⟨l, h1, h2⟩ := hd
  refine ⟨a :: l, by simpa using h1, fun w hw => ?_⟩
  rcases hg w hw with rfl | hw
  · simp
  · simp [h2 w hw]

/-- At most `n` objects of each kind. -/
structure Used (h : Heap) (n : Nat) : Prop where
  recs : Dom h.recs n
  cells : Dom h.cells n
  ints : Dom h.ints n
  dbls : Dom h.dbls n
  sstrs : Dom h.sstrs n
  lstrs : Dom h.lstrs n

/-- The addresses in use, but for one new one of each kind. -/
structure Near (h h' : Heap) : Prop where
  recs : ∃ a, ∀ w, h'.recs w ≠ none → w = a ∨ h.recs w ≠ none
  cells : ∃ a, ∀ w, h'.cells w ≠ none → w = a ∨ h.cells w ≠ none
  ints : ∃ a, ∀ w, h'.ints w ≠ none → w = a ∨ h.ints w ≠ none
  dbls : ∃ a, ∀ w, h'.dbls w ≠ none → w = a ∨ h.dbls w ≠ none
  sstrs : ∃ a, ∀ w, h'.sstrs w ≠ none → w = a ∨ h.sstrs w ≠ none
  lstrs : ∃ a, ∀ w, h'.lstrs w ≠ none → w = a ∨ h.lstrs w ≠ none

theorem Near.used (hn : Near h h') (hu : Used h n) : Used h' (n + 1) := by
  obtain ⟨⟨a, ha⟩, ⟨b, hb⟩, ⟨c, hc⟩, ⟨d, hd⟩, ⟨e, he⟩, ⟨f, hf⟩⟩ := hn
  exact ⟨hu.recs.one a ha, hu.cells.one b hb, hu.ints.one c hc, hu.dbls.one d hd, hu.sstrs.one e he, hu.lstrs.one f hf⟩

theorem upd_one {α : Type} (f : Word → Option α) (a : Word) (x : Option α) : ∃ b, ∀ w, upd f a x w ≠ none → w = b ∨ f w ≠ none := by
  refine ⟨a, fun w hw => ?_⟩
  by_cases h : w = a
  · exact Or.inl h
  · rw [upd_ne _ _ h] at hw; exact Or.inr hw
theorem same_one {α : Type} (f : Word → Option α) : ∃ b : Word, ∀ w, f w ≠ none → w = b ∨ f w ≠ none := ⟨0#64, fun _ h => Or.inr h⟩

theorem Near.refl (h : Heap) : Near h h := ⟨same_one _, same_one _, same_one _, same_one _, same_one _, same_one _⟩

/-- Nothing new but at most one list cell. -/
structure Near0 (h h' : Heap) : Prop where
  recs : ∀ w, h'.recs w ≠ none → h.recs w ≠ none
  cells : ∃ a, ∀ w, h'.cells w ≠ none → w = a ∨ h.cells w ≠ none
  ints : ∀ w, h'.ints w ≠ none → h.ints w ≠ none
  dbls : ∀ w, h'.dbls w ≠ none → h.dbls w ≠ none
  sstrs : ∀ w, h'.sstrs w ≠ none → h.sstrs w ≠ none
  lstrs : ∀ w, h'.lstrs w ≠ none → h.lstrs w ≠ none

theorem Near0.refl (h : Heap) : Near0 h h := ⟨fun _ h => h, same_one _, fun _ h => h, fun _ h => h, fun _ h => h, fun _ h => h⟩
theorem Near0.near (hn : Near0 h h') : Near h h' :=
  ⟨⟨0#64, fun w hw => Or.inr (hn.recs w hw)⟩, hn.cells, ⟨0#64, fun w hw => Or.inr (hn.ints w hw)⟩, ⟨0#64, fun w hw => Or.inr (hn.dbls w hw)⟩,
    ⟨0#64, fun w hw => Or.inr (hn.sstrs w hw)⟩, ⟨0#64, fun w hw => Or.inr (hn.lstrs w hw)⟩⟩
theorem Near0.after (h1 : Near0 h h') (hc : h'.cells = h.cells) (hn : Near0 h' h2) : Near0 h h2 :=
  ⟨fun w hw => h1.recs w (hn.recs w hw), by rw [← hc]; exact hn.cells, fun w hw => h1.ints w (hn.ints w hw), fun w hw => h1.dbls w (hn.dbls w hw),
    fun w hw => h1.sstrs w (hn.sstrs w hw), fun w hw => h1.lstrs w (hn.lstrs w hw)⟩

theorem setLink_dom (c : Word) (loc : Option Word) (q : Word) :
    (∀ w, (h.setLink c loc q).recs w ≠ none → h.recs w ≠ none) ∧ (∀ w, (h.setLink c loc q).cells w ≠ none → h.cells w ≠ none) := by
  unfold Heap.setLink
  constructor
  · intro w hw
    cases loc with
    | none =>
      by_cases hwc : w = c
      · subst hwc
        intro hc
        simp [upd_self, hc] at hw
      · simpa [upd_ne _ _ hwc] using hw
    | some l => exact hw
  · intro w hw
    cases loc with
    | none => exact hw
    | some l =>
      by_cases hwc : w = l
      · subst hwc
        intro hc
        simp [upd_self, hc] at hw
      · simpa [upd_ne _ _ hwc] using hw

theorem appendBack_near (c p q : Word) : ∀ (n : Nat) (loc : Option Word) (cur : Word), appendBack h c p q n loc cur = some h' → Near0 h h'
  | 0, _, _, e => by simp [appendBack] at e
  | n + 1, loc, cur, e => by
    rw [appendBack] at e
    by_cases h0 : cur = 0#64
    · rw [if_pos h0] at e
      cases e
      obtain ⟨d1, d2⟩ := setLink_dom (h := { h with cells := upd h.cells q (some ⟨p, 0#64⟩) }) c loc q
      refine ⟨d1, ?_, ?_, ?_, ?_, ?_⟩
      · obtain ⟨a, ha⟩ := upd_one h.cells q (some ⟨p, 0#64⟩)
        exact ⟨a, fun w hw => ha w (d2 w hw)⟩
      all_goals cases loc <;> exact fun _ h => h
    · rw [if_neg h0] at e
      cases hx : h.cells cur with
      | none => rw [hx] at e; cases e
      | some x => rw [hx] at e; exact appendBack_near c p q n _ _ e

theorem addBacklink_near {c p : Word} {q : Option Word} (e : addBacklink h c p q = some h') : Near0 h h' := by
  unfold addBacklink at e
  cases hx : h.recs c with
  | none => rw [hx] at e; cases e
  | some x =>
    cases q with
    | none => rw [hx] at e; cases e
    | some q => rw [hx] at e; exact appendBack_near _ _ _ _ _ _ e

theorem afterStore_near (X : Ix ι) {x : ι} {r : Word} {i : Nat} {v : Word} {cell : Option Word} {s2 : Db ι} {c : Option Int}
    (e : afterStore X h x r i v cell = some (s2, c)) : Near0 h s2.h := by
  unfold afterStore at e
  cases hx : h.recs r with
  | none => rw [hx] at e; cases e
  | some rc =>
    rw [hx] at e
    dsimp only at e
    generalize (if touches X x rc i = true then X.addField h x r i else (x, 0)) = y at e
    by_cases c1 : y.2 < -1
    · rw [if_pos c1] at e; cases e; exact Near0.refl _
    rw [if_neg c1] at e
    by_cases c2 : isRecVal v = true
    · rw [if_pos c2] at e
      cases hb : addBacklink h v r cell with
      | none => rw [hb] at e; cases e
      | some h1 => rw [hb] at e; cases e; exact addBacklink_near hb
    · rw [if_neg c2] at e; cases e; exact Near0.refl _

theorem incRef_near {v : Word} (e : incRef h v = some h') : Near0 h h' ∧ h'.cells = h.cells := by
  unfold incRef at e
  by_cases c : isLongstr v = true
  · rw [if_pos c] at e
    cases hs : h.lstrs (decodeLongstr v) with
    | none => rw [hs] at e; cases e
    | some s =>
      rw [hs] at e
      cases e
      refine ⟨⟨fun _ h => h, same_one _, fun _ h => h, fun _ h => h, fun _ h => h, fun w hw => ?_⟩, rfl⟩
      by_cases ho : w = decodeLongstr v
      · subst ho; rw [hs]; simp
      · simpa only [upd_ne _ _ ho] using hw
  · rw [if_neg c] at e; cases e; exact ⟨Near0.refl _, rfl⟩

theorem replaceField_near {r : Word} {i : Nat} {v : Word} (e : replaceField h r i 0#64 v = some (some h')) : Near0 h h' ∧ h'.cells = h.cells := by
  unfold replaceField at e
  rw [if_neg (by decide)] at e
  dsimp only at e
  cases h2 : incRef h v with
  | none => rw [h2] at e; cases e
  | some g2 =>
    rw [h2, Option.bind_some, if_neg (by decide)] at e
    simp only [Option.map_some, Option.some.injEq] at e
    subst e
    obtain ⟨n1, n2⟩ := incRef_near h2
    refine ⟨⟨fun w hw => ?_, n1.cells, n1.ints, n1.dbls, n1.sstrs, n1.lstrs⟩, n2⟩
    apply n1.recs
    unfold Heap.setFld at hw
    by_cases hwr : w = r
    · subst hwr
      intro hc
      simp [upd_self, hc] at hw
    · simpa [upd_ne _ _ hwr] using hw

theorem setField_near (X : Ix ι) {r : Word} {i : Int} {v : Word} {cell : Option Word} {c : Int} {rc : Rec} (hr : s.h.recs r = some rc)
    (hi : rc.fields[i.toNat]? = some 0#64) (e : setField X s r i v cell = some (s', c)) : Near0 s.h s'.h := by
  unfold setField at e
  rw [hr] at e
  dsimp only at e
  have hg : rc.fields.getD i.toNat 0#64 = 0#64 := by simp [hi]
  by_cases c1 : i < 0 ∨ (rc.fields.length : Int) ≤ i
  · rw [if_pos c1] at e; cases e; exact Near0.refl _
  rw [if_neg c1, hg] at e
  by_cases c2 : 0#64 = v
  · rw [if_pos c2] at e; cases e; exact Near0.refl _
  rw [if_neg c2] at e
  cases hf : forgetField X s r i.toNat rc with
  | none => rw [hf] at e; cases e
  | some y =>
    obtain ⟨x1, code⟩ := y
    rw [hf] at e
    dsimp only at e
    by_cases c3 : code ≠ 0
    · rw [if_pos c3] at e; cases e; exact Near0.refl _
    rw [if_neg c3] at e
    cases hp : replaceField s.h r i.toNat 0#64 v with
    | none => rw [hp] at e; cases e
    | some y =>
      cases y with
      | none => rw [hp] at e; cases e; exact Near0.refl _
      | some h1 =>
        rw [hp] at e
        dsimp only at e
        have q1 := replaceField_near hp
        cases ha : afterStore X h1 x1 r i.toNat v cell with
        | none => rw [ha] at e; cases e
        | some z =>
          obtain ⟨s2, co⟩ := z
          have q2 := afterStore_near X ha
          rw [ha] at e
          cases co with
          | some k => cases e; exact q1.1.after q1.2 q2
          | none => rw [restoreParents_h X e]; exact q1.1.after q1.2 q2

theorem encUnistr_near {str : List Byte} {al : StrAlloc} {w : Word} (he : encUnistr h str none 5#64 al = some (h', w)) : Near h h' := by
  unfold encUnistr at he
  split_ifs at he
  · unfold encShort at he
    cases ha : al.short with
    | none => rw [ha] at he; cases he; exact Near.refl _
    | some o => rw [ha] at he; cases he; exact ⟨same_one _, same_one _, same_one _, same_one _, upd_one _ _ _, same_one _⟩
  · unfold findCreate at he
    dsimp only at he
    cases hb : findBucket h (str ++ [0#8]) none 5#64 walkFuel (h.hash (hashTyped h.hlen (str ++ [0#8]) none)) with
    | none => rw [hb] at he; cases he
    | some old =>
      rw [hb] at he
      dsimp only at he
      by_cases ho : old ≠ 0#64
      · rw [if_pos ho] at he
        simp only [Option.some.injEq, Prod.mk.injEq] at he
        rw [← he.1]
        exact Near.refl _
      · rw [if_neg ho] at he
        cases ha : al.long with
        | none =>
          rw [ha] at he
          simp only [Option.some.injEq, Prod.mk.injEq] at he
          rw [← he.1]
          exact Near.refl _
        | some o =>
          rw [ha] at he
          have hi : incRef h 0#64 = some h := rfl
          simp only [hi, Option.map_some, Option.some.injEq, Prod.mk.injEq] at he
          rw [← he.1]
          exact ⟨same_one _, same_one _, same_one _, same_one _, same_one _, upd_one _ _ _⟩

theorem step_near {op : Op} {out : Out} (ha : Adds s op) (he : run X s op = some (s', out)) : Near s.h s'.h := by
  cases op with
  | create len bits al =>
    have hh : s'.h = (createRaw s.h len bits al).1 := by
      simp only [run, Option.some.injEq, Prod.mk.injEq] at he
      rw [← he.1]
      unfold createRecord
      dsimp only
      split_ifs <;> rfl
    rw [hh]
    unfold createRaw
    by_cases hl : len < 0
    · rw [if_pos hl]; exact Near.refl _
    · rw [if_neg hl]
      cases al with
      | none => exact Near.refl _
      | some o => exact ⟨upd_one _ _ _, same_one _, same_one _, same_one _, same_one _, same_one _⟩
  | int v al =>
    simp only [run, Option.some.injEq, Prod.mk.injEq] at he
    obtain ⟨rfl, _⟩ := he
    unfold encInt
    split_ifs
    · exact Near.refl _
    · cases al with
      | none => exact Near.refl _
      | some o => exact ⟨same_one _, same_one _, upd_one _ _ _, same_one _, same_one _, same_one _⟩
  | double v al =>
    simp only [run, Option.some.injEq, Prod.mk.injEq] at he
    obtain ⟨rfl, _⟩ := he
    unfold encDouble
    cases al with
    | none => exact Near.refl _
    | some o => exact ⟨same_one _, same_one _, same_one _, upd_one _ _ _, same_one _, same_one _⟩
  | str t lang type al =>
    obtain ⟨rfl, rfl⟩ := ha
    simp only [run, Option.map_eq_some_iff] at he
    obtain ⟨y, e1, e2⟩ := he
    cases e2
    exact encUnistr_near e1
  | set r i v cell =>
    obtain ⟨_, rc, hr, hi⟩ := ha
    simp only [run, Option.map_eq_some_iff] at he
    obtain ⟨y, e1, e2⟩ := he
    cases e2
    exact (setField_near X hr hi e1).near
  | setNew _ _ _ _ => exact ha.elim
  | delete _ => exact ha.elim
  | blob _ _ _ => exact ha.elim
  | free _ => exact ha.elim

theorem Steps.used (hu : Used s0.h n) {k : Nat} {s : Db ι} (hs : Steps C X s0 k s) : Used s.h (n + k) := by
  induction hs with
  | refl => exact hu
  | step _ ha _ he ih => exact (step_near ha he).used ih

/-! ## An allocator that takes the first free address of a list -/

/-- The first address of `l` that is not in use. -/
def pick {α : Type} (l : List Word) (f : Word → Option α) : Option Word := l.find? (fun o => (f o).isNone)

theorem pick_free {α : Type} {l : List Word} {f : Word → Option α} {o : Word} (h : pick l f = some o) : f o = none ∧ o ∈ l :=
  ⟨by simpa using List.find?_some h, List.mem_of_find?_eq_some h⟩

theorem pick_some {α : Type} {l : List Word} (hl : l.Nodup) {f : Word → Option α} (hd : Dom f n) (hn : n < l.length) : pick l f ≠ none := by
  intro hp
  unfold pick at hp
  rw [List.find?_eq_none] at hp
  obtain ⟨u, h1, h2⟩ := hd
  have hsub : l ⊆ u := fun w hw => h2 w (by have := hp w hw; simpa using this)
  have := (hl.subperm hsub).length_le
  omega

/-- An allocator with the addresses `l` for objects of each kind. -/
def listAlloc (l : List Word) : Alloc ι where
  rcd s _ := pick l s.h.recs
  cell s := pick l s.h.cells
  int s := pick l s.h.ints
  dbl s := pick l s.h.dbls
  str s _ := ⟨pick l s.h.sstrs, pick l s.h.lstrs, none, none⟩

theorem listAlloc_ok {l : List Word} (hl : ∀ o ∈ l, Aligned o ∧ isRecVal o = true) : (listAlloc l : Alloc ι).Ok where
  rcd s _ o h := ⟨(pick_free h).1, (hl o (pick_free h).2).2⟩
  cell s o h := ⟨(pick_free h).1, by rintro rfl; exact absurd (hl _ (pick_free h).2).2 (by decide)⟩
  int s o h := ⟨(pick_free h).1, (hl o (pick_free h).2).1⟩
  dbl s o h := ⟨(pick_free h).1, (hl o (pick_free h).2).1⟩
  str s _ := ⟨fun o h => ⟨(pick_free h).1, (hl o (pick_free h).2).1⟩, fun o h => by (first | cases h | exact ⟨(pick_free h).1, (hl o (pick_free h).2).1⟩),
    fun o h => by (first | cases h | exact ⟨(pick_free h).1, (hl o (pick_free h).2).1⟩), fun o h => by (first | cases h | exact ⟨(pick_free h).1, (hl o (pick_free h).2).1⟩), fun o _ h => by cases h⟩

/-- The addresses 8, 16, 24, ... -/
def addrs (n : Nat) : List Word := (List.range n).map fun i => BitVec.ofNat 64 (8 * (i + 1))

theorem addrs_nodup {n : Nat} (hn : n < 2 ^ 60) : (addrs n).Nodup := by
  refine (List.nodup_range).map_on ?_
  intro x hx y hy e
  have := congrArg BitVec.toNat e
  simp only [BitVec.toNat_ofNat, List.mem_range] at *
  omega

theorem addrs_ok {n : Nat} (hn : n < 2 ^ 60) : ∀ o ∈ addrs n, Aligned o ∧ isRecVal o = true := by
  intro o ho
  obtain ⟨i, hi, rfl⟩ := List.mem_map.1 ho
  rw [List.mem_range] at hi
  have hnat : (BitVec.ofNat 64 (8 * (i + 1))).toNat = 8 * (i + 1) := by rw [BitVec.toNat_ofNat]; omega
  have h7 : (BitVec.ofNat 64 (8 * (i + 1))) &&& 7#64 = 0#64 := by
    apply BitVec.eq_of_toNat_eq
    rw [BitVec.toNat_and, hnat, show (7#64 : Word).toNat = 2 ^ 3 - 1 from rfl, Nat.and_two_pow_sub_one_eq_mod]
    simp
  refine ⟨h7, ?_⟩
  have hne : BitVec.ofNat 64 (8 * (i + 1)) ≠ 0#64 := by
    intro h
    have := congrArg BitVec.toNat h
    rw [hnat] at this
    simp at this
  have h3 : (BitVec.ofNat 64 (8 * (i + 1))) &&& 3#64 = 0#64 := by
    rw [show (3#64 : Word) = 7#64 &&& 3#64 by decide, ← BitVec.and_assoc, h7]; decide
  simp [isRecVal, isPtr, isDatarec, h7, h3, hne]

theorem empty_used (m : Nat) : Used (Heap.empty m) 0 := by
  constructor <;> exact ⟨[], by simp, fun w hw => by simp [Heap.empty] at hw⟩

end WG.Json
