import Verif.Json.Parse
import Mathlib.Data.List.TakeWhile
/-! # Whole texts, and printing -/
namespace WG.Json
open WG.Recs

variable {C : Prop} {ι : Type} {h h' : Heap} {X : Ix ι} {s0 s s' : Db ι} {k N : Nat} {L : List Word} {A : Alloc ι} {evs : List Ev} {p d : Bool}

/-- The end of the outermost array or object. -/
theorem pop_top (E : Env A C X s0 N) {c : Ctx ι} {e : Entry} {m : Nat} (ha : At C X s0 N evs p d k c e [] (1 + m)) :
    (∃ c', pop A X c = some (c', false) ∧ Ext c.db.h c'.db.h ∧ (∃ k', LInv C X s0 k' c'.db []) ∧ Full A C X s0 N evs) ∨
    ∃ c' k' r rc, pop A X c = some (c', true) ∧ Ext c.db.h c'.db.h ∧ LInv C X s0 k' c'.db [r] ∧ c'.doc = some r ∧ isRecVal r = true ∧ c'.db.h.recs r = some rc ∧
      (if e.arr then IsArr rc else IsObj rc) ∧ rc.fields = e.elems ∧ rc.isDoc = d := by
  have hcalls := ha.calls
  have helems := ha.elems
  have hlen : loose [e] = e.elems := by simp [loose]
  have hl := ha.linv
  rw [hlen] at hcalls helems hl
  unfold pop
  rw [ha.stack]
  dsimp only
  rcases hc : createStruct A X c.db e.arr e.elems.length (([] : List Entry).isEmpty && c.isdoc) c.param with ⟨s1, o⟩
  rcases LInv.struct (L := []) E (by rw [List.append_nil]; exact hl) (by omega) _ _ _ hc with ⟨rfl, f1, f2, f3⟩ | ⟨f0, f1, s2, f2, f3, f4, rc, f5, f6, f7, f8⟩
  · rw [if_pos rfl]
    exact Or.inl ⟨_, rfl, f2, ⟨_, f3⟩, k, c.db, ha.linv.steps, by omega, Or.inl ⟨_, by omega, f1⟩⟩
  · rw [if_neg f0, f2]
    dsimp only
    rw [if_pos (by simp)]
    refine Or.inr ⟨_, _, o, rc, rfl, f3, f4, rfl, f1, f5, f6, f7, ?_⟩
    rw [f8, ha.isdoc]; simp

/-- A text: push, contents, pop. -/
theorem top_ok (E : Env A C X s0 N) (hN : 7 * evs.length ≤ N) (hr : Reach C X s0) {dep : Nat} {arr : Bool} {l : List Ev} {j : J} {open_ close : Ev}
    (ho : ∀ c : Ctx ι, handle A X c open_ = some (push c arr)) (hcl : ∀ c : Ctx ι, handle A X c close = pop A X c) (hevs : evs = open_ :: l ++ [close])
    (hin : ∀ c1 : Ctx ι, c1.db = s0 → At C X s0 N evs p d 0 c1 ⟨arr, [], none⟩ [] (l.length + 1) →
      Stops A C X s0 N evs l c1 (7 < 1 + dep) ∨
      ∃ c' k' xs key, feed A X l c1 = some (c', true) ∧ Ext c1.db.h c'.db.h ∧ 1 + dep ≤ 7 ∧
        At C X s0 N evs p d k' c' ⟨arr, xs, key⟩ [] 1 ∧
        ∀ h rc o, isRecVal o = true → h.recs o = some rc → (if arr then IsArr rc else IsObj rc) → rc.fields = xs → Ext c'.db.h h → Denotes h o j) :
    Stops A C X s0 N evs (open_ :: l ++ [close]) ⟨s0, [], none, p, d⟩ (7 < dep + 1) ∨
    ∃ c' k' r rc, feed A X (open_ :: l ++ [close]) ⟨s0, [], none, p, d⟩ = some (c', true) ∧ dep + 1 ≤ 7 ∧
      Ext s0.h c'.db.h ∧ LInv C X s0 k' c'.db [r] ∧ c'.doc = some r ∧ isRecVal r = true ∧ c'.db.h.recs r = some rc ∧ rc.isDoc = d ∧ Denotes c'.db.h r j := by
  have hp : handle A X (⟨s0, [], none, p, d⟩ : Ctx ι) open_ = some (⟨s0, [⟨arr, [], none⟩], none, p, d⟩, true) := by rw [ho, push, if_neg (by simp [maxDepth])]
  have hlen : evs.length = l.length + 2 := by rw [hevs]; simp
  have h1 : At C X s0 N evs p d 0 ⟨s0, [⟨arr, [], none⟩], none, p, d⟩ ⟨arr, [], none⟩ [] (l.length + 1) :=
    ⟨rfl, LInv.start hr, by simp, by simp, by simp [loose]; omega, by simp [loose]; omega, rfl, rfl⟩
  have hopen : feed A X [open_] ⟨s0, [], none, p, d⟩ = some (⟨s0, [⟨arr, [], none⟩], none, p, d⟩, true) := by simp only [feed, hp]
  rcases hin _ rfl h1 with hs | ⟨c2, k2, xs, key, g1, g2, g3, g4, g5⟩
  · left
    have := Stops.left (b := [close]) (Stops.right (a := [open_]) hopen (Ext.refl _) hs id) (Q := 7 < dep + 1) (by omega)
    simpa using this
  · have hfeed : feed A X (open_ :: l) ⟨s0, [], none, p, d⟩ = some (c2, true) := by rw [feed, hp]; exact g1
    rcases pop_top (m := 0) E g4 with ⟨c3, f1, f2, f3, f4⟩ | ⟨c3, k3, r, rc, f1, f2, f3, f4, f5, f6, f7, f8, f9⟩
    · left
      exact Stops.right (a := open_ :: l) hfeed g2 (P := False) ⟨c3, by simp only [feed, hcl, f1], f2, f3, Or.inl f4⟩ False.elim
    · right
      refine ⟨c3, k3, r, rc, by rw [feed_append, hfeed]; simp only [feed, hcl, f1], by omega, g2.trans f2, f3, f4, f5, f6, f9, g5 _ _ _ f5 f6 f7 f8 f2⟩

/-- An array or an object. -/
def J.isText : J → Bool
  | .arr _ => true
  | .obj _ => true
  | _ => false

theorem text_ok (E : Env A C X s0 N) (j : J) (hj : j.isText = true) (hN : 7 * j.events.length ≤ N) (hr : Reach C X s0) :
    Stops A C X s0 N j.events j.events ⟨s0, [], none, p, d⟩ (7 < j.depth) ∨
    ∃ c' k' r rc, feed A X j.events ⟨s0, [], none, p, d⟩ = some (c', true) ∧ j.depth ≤ 7 ∧
      Ext s0.h c'.db.h ∧ LInv C X s0 k' c'.db [r] ∧ c'.doc = some r ∧ isRecVal r = true ∧ c'.db.h.recs r = some rc ∧ rc.isDoc = d ∧ Denotes c'.db.h r j.kept := by
  cases j with
  | arr l =>
    refine top_ok (arr := true) (l := l.events) (open_ := .startArr) (close := .endArr) E hN hr (fun _ => rfl) (fun _ => rfl) rfl ?_
    intro c1 _ hc1
    rcases arr_ok E l c1 0 _ _ _ hc1 rfl (fun x hx => by simp [J.events, hx]) with h | ⟨c', k', xs, h1, h2, h3, h4, h5⟩
    · exact Or.inl (by simpa using h)
    · refine Or.inr ⟨c', k', xs, none, h1, h2, by simpa using h3, h4, ?_⟩
      intro h rc o e1 e2 e3 e4 e5
      rw [J.kept, Denotes]
      refine ⟨e1, rc, e2, e3, ?_⟩
      rw [e4]
      exact h5.mono e5 h4.linv.inv (fun w hw => elems_live h4 hw)
  | obj o =>
    refine top_ok (arr := false) (l := o.events) (open_ := .startMap) (close := .endMap) E hN hr (fun _ => rfl) (fun _ => rfl) rfl ?_
    intro c1 _ hc1
    rcases obj_ok E o c1 0 _ _ _ hc1 rfl (fun x hx => by simp [J.events, hx]) with h | ⟨c', k', xs, key, h1, h2, h3, h4, h5⟩
    · exact Or.inl (by simpa using h)
    · refine Or.inr ⟨c', k', xs, key, h1, h2, by simpa using h3, h4, ?_⟩
      intro h rc o e1 e2 e3 e4 e5
      rw [J.kept, Denotes]
      refine ⟨e1, rc, e2, e3, ?_⟩
      rw [e4]
      exact h5.mono e5 h4.linv.inv
  | _ => cases hj

theorem LInv.tree {r : Word} (hr : isRecVal r = true) (hL : LInv C X s0 k s [r]) : TreeShaped (view s.h) r := by
  refine ⟨hL.unref r (by simp) hr, ?_⟩
  have hnew : ∀ n x, Links (view s.h) r x n → isRecVal x = true ∧ s0.h.recs x = none := by
    intro n x hl
    induction hl with
    | here => exact ⟨hr, hL.fresh r (by simp) hr⟩
    | @step y x n fs h1 h2 h3 h4 ih =>
      simp only [view, Option.map_eq_some_iff] at h2
      obtain ⟨rc, e, rfl⟩ := h2
      exact ⟨h4, hL.closed y rc x e ih.2 h3 h4⟩
  rintro x ⟨n, hx⟩
  exact hL.single x (hnew n x hx).1 (hnew n x hx).2

/-! ## What is kept of a plain text is the text -/

theorem upToNul_eq {s : List Byte} (hz : 0#8 ∉ s) : upToNul s = s := by
  unfold upToNul
  rw [List.takeWhile_eq_self_iff]
  intro x hx
  simp only [ne_eq, decide_eq_true_eq]
  rintro rfl
  exact hz hx

mutual
theorem kept_plain : ∀ {j : J}, j.plain → j.kept = j ∧ j.dropped = false
  | .null, h => h.elim
  | .bool _, h => h.elim
  | .int _, _ => ⟨rfl, rfl⟩
  | .dbl _, _ => ⟨rfl, rfl⟩
  | .str s, h => ⟨by rw [J.kept, upToNul_eq h], rfl⟩
  | .arr l, h => ⟨by rw [J.kept, keptArr_plain h], rfl⟩
  | .obj m, h => ⟨by rw [J.kept, keptObj_plain h], rfl⟩
theorem keptArr_plain : ∀ {l : JArr}, l.plain → l.kept = l
  | .nil, _ => rfl
  | .cons v l, h => by
    rw [JArr.kept, (kept_plain h.1).2, (kept_plain h.1).1, keptArr_plain h.2, if_neg (by simp)]
theorem keptObj_plain : ∀ {m : JObj}, m.plain → m.kept = m
  | .nil, _ => rfl
  | .cons k v m, h => by
    rw [JObj.kept, (kept_plain h.2.2.1).2, (kept_plain h.2.2.1).1, keptObj_plain h.2.2.2, if_neg (by simp), upToNul_eq h.1, List.take_of_length_le (by have := h.2.1; omega)]
end

/-! ## Levels of records -/

theorem typ_rec {w : Word} (hw : isRecVal w = true) : h.reader.typ w = some .record := (isRecVal_type h.mem w).1 hw

theorem str_not_rec {w : Word} {s : List Byte} (hs : IsStr h w s) : isRecVal w = false := by
  cases hw : isRecVal w with
  | false => rfl
  | true =>
    have := hs.1
    rw [show h.reader.typ w = some .record from typ_rec hw] at this
    cases this

mutual
theorem levels_ok {w : Word} : ∀ {j : J}, Denotes h w j → isRecVal w = true → ∀ {x : Word} {n : Nat}, Links (view h) w x n → n < j.levels
  | .null, hd, _, _, _, _ => hd.elim
  | .bool _, hd, _, _, _, _ => hd.elim
  | .int _, hd, hw, _, _, _ => by
    have := hd.1
    rw [show h.reader.typ w = some .record from typ_rec hw] at this; cases this
  | .dbl _, hd, hw, _, _, _ => by
    have := hd.1
    rw [show h.reader.typ w = some .record from typ_rec hw] at this; cases this
  | .str _, hd, hw, _, _, _ => by rw [str_not_rec hd] at hw; cases hw
  | .arr l, hd, hw, x, n, hl => by
    rw [J.levels]
    cases n with
    | zero => omega
    | succ n =>
      obtain ⟨_, rc, e1, _, e3⟩ := hd
      obtain ⟨fs, c, f1, f2, f3, f4⟩ := hl.head
      simp only [view, e1, Option.map_some, Option.some.injEq] at f1
      subst f1
      have := levelsArr_ok e3 f2 f3 f4
      omega
  | .obj m, hd, hw, x, n, hl => by
    rw [J.levels]
    cases n with
    | zero => omega
    | succ n =>
      obtain ⟨_, rc, e1, _, e3⟩ := hd
      obtain ⟨fs, c, f1, f2, f3, f4⟩ := hl.head
      simp only [view, e1, Option.map_some, Option.some.injEq] at f1
      subst f1
      have := levelsObj_ok e3 f2 f4
      omega
theorem levelsArr_ok {ws : List Word} : ∀ {l : JArr}, DenotesArr h ws l → ∀ {c : Word}, c ∈ ws → isRecVal c = true → ∀ {x : Word} {n : Nat}, Links (view h) c x n → n < l.levels
  | .nil, hd, c, hc, _, _, _, _ => by rw [show ws = [] from hd] at hc; cases hc
  | .cons v l, hd, c, hc, hr, x, n, hl => by
    obtain ⟨w, ws', rfl, h1, h2⟩ := hd
    rw [JArr.levels]
    rcases List.mem_cons.1 hc with rfl | hc
    · have := levels_ok h1 hr hl; omega
    · have := levelsArr_ok h2 hc hr hl; omega
theorem levelsObj_ok {ws : List Word} : ∀ {m : JObj}, DenotesObj h ws m → ∀ {c : Word}, c ∈ ws → ∀ {x : Word} {n : Nat}, Links (view h) c x n → n < m.levels
  | .nil, hd, c, hc, _, _, _ => by rw [show ws = [] from hd] at hc; cases hc
  | .cons k v m, hd, c, hc, x, n, hl => by
    obtain ⟨r, ws', rc, kw, vw, rfl, g1, g2, g3, g4, g5, g6, g7⟩ := hd
    rw [JObj.levels]
    rcases List.mem_cons.1 hc with rfl | hc
    · cases n with
      | zero => omega
      | succ n =>
        obtain ⟨fs, c', f1, f2, f3, f4⟩ := hl.head
        simp only [view, g2, Option.map_some, Option.some.injEq] at f1
        subst f1
        rw [g4] at f2
        simp only [List.mem_cons, List.not_mem_nil, or_false] at f2
        rcases f2 with rfl | rfl | rfl
        · exact absurd f3 (by decide)
        · rw [str_not_rec g5] at f3; cases f3
        · have := levels_ok g6 f3 f4; omega
    · have := levelsObj_ok g7 hc hl; omega
end

/-! ## Printing -/

theorem digits_len (n b : Nat) (hn : n < 10 ^ (b + 1)) : (digits n).length ≤ b + 1 := by
  induction b generalizing n with
  | zero => rw [digits, if_pos (by simpa using hn)]; simp
  | succ b ih =>
    rw [digits]
    split_ifs
    · simp
    · have := ih (n / 10) (by rw [Nat.div_lt_iff_lt_mul (by omega)]; rw [pow_succ] at hn; exact hn)
      simp; omega

theorem toInt32_eq {v : Word} (h1 : -2147483648 ≤ v.toInt) (h2 : v.toInt < 2147483648) : toInt32 v = v.toInt := by
  unfold toInt32
  rw [show (v.truncate 32) = BitVec.ofInt 32 v.toInt from ?_, BitVec.toInt_ofInt, Int.bmod_eq_of_le (by norm_num; omega) (by norm_num; omega)]
  apply BitVec.eq_of_toNat_eq
  rw [BitVec.toNat_ofInt, BitVec.truncate_eq_setWidth, BitVec.toNat_setWidth]
  have : v.toInt = if 2 * v.toNat < 2^64 then (v.toNat : Int) else (v.toNat : Int) - 2^64 := BitVec.toInt_eq_toNat_cond v
  split_ifs at this <;> omega

theorem fmtInt_take {i : Int} (h1 : -2147483648 ≤ i) (h2 : i < 2147483648) : (fmtInt i).take 77 = fmtInt i := by
  apply List.take_of_length_le
  unfold fmtInt
  have : (digits i.natAbs).length ≤ 9 + 1 := digits_len _ 9 (by norm_num; omega)
  split_ifs
  · simp; omega
  · omega

theorem isArr_bits {rc : Rec} (ha : IsArr rc) : ¬ rc.info &&& 0x20#64 ≠ 0#64 ∧ rc.info &&& 0x40#64 ≠ 0#64 := by
  have e1 : rc.info &&& 0x20#64 = (rc.info &&& 0x60#64) &&& 0x20#64 := by rw [BitVec.and_assoc]; rfl
  have e2 : rc.info &&& 0x40#64 = (rc.info &&& 0x60#64) &&& 0x40#64 := by rw [BitVec.and_assoc]; rfl
  rw [e1, e2, show rc.info &&& 0x60#64 = 0x40#64 from ha]; decide
theorem isObj_bits {rc : Rec} (ha : IsObj rc) : rc.info &&& 0x20#64 ≠ 0#64 := by
  have e1 : rc.info &&& 0x20#64 = (rc.info &&& 0x60#64) &&& 0x20#64 := by rw [BitVec.and_assoc]; rfl
  rw [e1, show rc.info &&& 0x60#64 = 0x20#64 from ha]; decide
theorem isPlain_bits {rc : Rec} (ha : IsPlain rc) : ¬ rc.info &&& 0x20#64 ≠ 0#64 ∧ ¬ rc.info &&& 0x40#64 ≠ 0#64 := by
  have e1 : rc.info &&& 0x20#64 = (rc.info &&& 0x60#64) &&& 0x20#64 := by rw [BitVec.and_assoc]; rfl
  have e2 : rc.info &&& 0x40#64 = (rc.info &&& 0x60#64) &&& 0x40#64 := by rw [BitVec.and_assoc]; rfl
  rw [e1, e2, show rc.info &&& 0x60#64 = 0#64 from ha]; decide

variable (fmt other : Word → List Byte)

mutual
theorem printVal_ok {w : Word} : ∀ {j : J}, Denotes h w j → j.fits fmt → ∀ n, j.levels ≤ n → printVal fmt other h (printRec fmt other h n) w = some (some (j.gens fmt))
  | .null, hd, _, _, _ => hd.elim
  | .bool _, hd, _, _, _ => hd.elim
  | .int v, hd, hf, _, _ => by
    unfold printVal
    rw [hd.1]
    dsimp only
    rw [hd.2, toInt32_eq hf.1 hf.2, fmtInt_take hf.1 hf.2]; rfl
  | .dbl v, hd, hf, _, _ => by
    unfold printVal
    rw [hd.1]
    dsimp only
    rw [hd.2, List.take_of_length_le hf]; rfl
  | .str s, hd, _, _, _ => by
    unfold printVal
    rw [hd.1]
    dsimp only
    rw [hd.2.1]; rfl
  | .arr l, hd, hf, n, hn => by
    unfold printVal
    rw [show h.reader.typ w = some .record from typ_rec hd.1]
    exact printRec_ok (j := .arr l) hd hd.1 hf n hn
  | .obj m, hd, hf, n, hn => by
    unfold printVal
    rw [show h.reader.typ w = some .record from typ_rec hd.1]
    exact printRec_ok (j := .obj m) hd hd.1 hf n hn
theorem printRec_ok {w : Word} : ∀ {j : J}, Denotes h w j → isRecVal w = true → j.fits fmt → ∀ n, j.levels ≤ n → printRec fmt other h n w = some (some (j.gens fmt))
  | .null, hd, _, _, _, _ => hd.elim
  | .bool _, hd, _, _, _, _ => hd.elim
  | .int _, hd, hw, _, _, _ => by
    have := hd.1
    rw [show h.reader.typ w = some .record from typ_rec hw] at this; cases this
  | .dbl _, hd, hw, _, _, _ => by
    have := hd.1
    rw [show h.reader.typ w = some .record from typ_rec hw] at this; cases this
  | .str _, hd, hw, _, _, _ => by rw [str_not_rec hd] at hw; cases hw
  | .arr l, hd, _, hf, n, hn => by
    obtain ⟨_, rc, e1, e2, e3⟩ := hd
    rw [J.levels] at hn
    obtain ⟨n, rfl⟩ : ∃ n', n = n' + 1 := ⟨n - 1, by omega⟩
    rw [printRec, e1]
    dsimp only
    rw [if_neg (isArr_bits e2).1, if_pos (isArr_bits e2).2, printArr_ok e3 hf n (by omega)]
    rfl
  | .obj m, hd, _, hf, n, hn => by
    obtain ⟨_, rc, e1, e2, e3⟩ := hd
    rw [J.levels] at hn
    obtain ⟨n, rfl⟩ : ∃ n', n = n' + 1 := ⟨n - 1, by omega⟩
    rw [printRec, e1]
    dsimp only
    rw [if_pos (isObj_bits e2), printObj_ok e3 hf n (by omega)]
    rfl
theorem printArr_ok {ws : List Word} : ∀ {l : JArr}, DenotesArr h ws l → l.fits fmt → ∀ n, l.levels ≤ n → printAll (printVal fmt other h (printRec fmt other h n)) ws = some (some (l.gens fmt))
  | .nil, hd, _, _, _ => by rw [show ws = [] from hd]; rfl
  | .cons v l, hd, hf, n, hn => by
    obtain ⟨w, ws', rfl, h1, h2⟩ := hd
    rw [JArr.levels] at hn
    rw [printAll, printVal_ok h1 hf.1 n (by omega)]
    dsimp only
    rw [printArr_ok h2 hf.2 n (by omega)]
    rfl
theorem printObj_ok {ws : List Word} : ∀ {m : JObj}, DenotesObj h ws m → m.fits fmt → ∀ n, m.levels ≤ n →
    printAll (fun w => if isRecVal w then printRec fmt other h n w else some none) ws = some (some (m.gens fmt))
  | .nil, hd, _, _, _ => by rw [show ws = [] from hd]; rfl
  | .cons k v m, hd, hf, n, hn => by
    obtain ⟨r, ws', rc, kw, vw, rfl, g1, g2, g3, g4, g5, g6, g7⟩ := hd
    rw [JObj.levels] at hn
    obtain ⟨n, rfl⟩ : ∃ n', n = n' + 1 := ⟨n - 1, by omega⟩
    rw [printAll, if_pos g1, printRec, g2]
    dsimp only
    rw [if_neg (isPlain_bits g3).1, if_neg (isPlain_bits g3).2, g4]
    simp only [List.getElem?_cons_succ, List.getElem?_cons_zero]
    rw [if_pos g5.1, g5.2.1, printVal_ok g6 hf.1 n (by omega)]
    dsimp only
    rw [printObj_ok g7 hf.2 (n + 1) (by omega)]
    rfl
end

end WG.Json
