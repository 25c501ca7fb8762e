import Verif.GintHash.Model
import Mathlib.Tactic.SplitIfs
import Mathlib.Data.List.Nodup
import Mathlib.Tactic.Set
import Mathlib.Data.Nat.Bitwise

/-!
# C30: the offset translation table is a map
-/

namespace WG.GintHash

theorem and_mask (h n : Nat) : h &&& (1 <<< n - 1) = h % 2 ^ n := by
  rw [Nat.one_shiftLeft, Nat.and_two_pow_sub_one_eq_mod]

theorem mod_succ (h n : Nat) : h % 2 ^ (n + 1) = h % 2 ^ n + 2 ^ n * (h / 2 ^ n % 2) := by
  rw [Nat.pow_succ, Nat.mod_mul]

theorem and_bit (h n : Nat) : (h &&& 1 <<< n ≠ 0) ↔ h % 2 ^ (n + 1) = 2 ^ n + h % 2 ^ n := by
  have : 0 < 2 ^ n := Nat.two_pow_pos n
  rw [Nat.one_shiftLeft, Nat.and_two_pow, mod_succ, Nat.testBit_eq_decide_div_mod_eq]
  rcases Nat.mod_two_eq_zero_or_one (h / 2 ^ n) with e | e <;> rw [e] <;> simp <;> omega

theorem not_bit (h n : Nat) : ¬(h &&& 1 <<< n ≠ 0) ↔ h % 2 ^ (n + 1) = h % 2 ^ n := by
  have : 0 < 2 ^ n := Nat.two_pow_pos n
  rw [and_bit, mod_succ]
  rcases Nat.mod_two_eq_zero_or_one (h / 2 ^ n) with e | e <;> rw [e] <;> omega

theorem mod_pow_mod (a : Nat) {l n : Nat} (h : l ≤ n) : a % 2 ^ n % 2 ^ l = a % 2 ^ l :=
  Nat.mod_mod_of_dvd a (Nat.pow_dvd_pow 2 h)

/-- `(k, v)` is stored where a lookup of `k` would search for it. -/
def Holds (hash : Word → Nat) (t : Table) (k v : Word) : Prop :=
  ∃ b, t.dir (hash k % 2 ^ t.level) = some b ∧ (k, v) ∈ (t.bucket b).items

structure Inv (hash : Word → Nat) (t : Table) : Prop where
  lo : 1 ≤ t.level
  hi : t.level < 23
  old : ∀ i b, i < 2 ^ t.level → t.dir i = some b → b < t.next
  lev : ∀ i b, i < 2 ^ t.level → t.dir i = some b → (t.bucket b).level ≤ t.level
  pat : ∀ i b, i < 2 ^ t.level → t.dir i = some b → ∀ kv ∈ (t.bucket b).items, hash kv.1 % 2 ^ (t.bucket b).level = i % 2 ^ (t.bucket b).level
  cls : ∀ i b, i < 2 ^ t.level → t.dir i = some b → ∀ j, j < 2 ^ t.level → (j % 2 ^ (t.bucket b).level = i % 2 ^ (t.bucket b).level ↔ t.dir j = some b)

theorem grow_dir (t : Table) (i : Nat) (hi : i < 2 ^ (t.level + 1)) :
    (if i < 2 ^ t.level then t.dir i else t.dir (i - 2 ^ t.level)) = t.dir (i % 2 ^ t.level) := by
  split_ifs with h
  · rw [Nat.mod_eq_of_lt h]
  · rw [Nat.pow_succ] at hi
    rw [Nat.mod_eq_sub_mod (by omega), Nat.mod_eq_of_lt (by omega)]

/-- What a successful growth of a table past level 0 does. -/
theorem grow_ok {mem : Nat → Bool} {t t' : Table} {ok : Bool} (h1 : 1 ≤ t.level) (hg : grow mem t = (t', ok)) :
    t'.bucket = t.bucket ∧ t'.next = t.next ∧
    ((ok = true ∧ t'.level = t.level + 1 ∧ t.level + 1 < 23 ∧ (∀ i, i < 2 ^ t'.level → t'.dir i = t.dir (i % 2 ^ t.level)) ∧ t'.tick = t.tick + 1) ∨
     (ok = false ∧ t'.level = t.level ∧ t'.dir = t.dir ∧
       (t.level + 1 ≥ 23 ∧ t'.tick = t.tick ∨ mem t.tick = false ∧ t'.tick = t.tick + 1))) := by
  unfold grow at hg
  have h0 : t.level ≠ 0 := by omega
  split_ifs at hg with a1 a2
  · cases hg
    exact ⟨rfl, rfl, .inr ⟨rfl, rfl, rfl, .inl ⟨a1, rfl⟩⟩⟩
  · cases hg
    refine ⟨rfl, rfl, .inl ⟨rfl, rfl, by simp only [maxLevel] at a1; omega, fun i hi => grow_dir t i hi, rfl⟩⟩
  · cases hg
    exact ⟨rfl, rfl, .inr ⟨rfl, rfl, rfl, .inr ⟨by simpa using a2, rfl⟩⟩⟩

theorem inv_grow {hash : Word → Nat} {t t' : Table} (h : Inv hash t) (eb : t'.bucket = t.bucket) (en : t'.next = t.next)
    (el : t'.level = t.level + 1) (hl : t.level + 1 < 23) (ed : ∀ i, i < 2 ^ t'.level → t'.dir i = t.dir (i % 2 ^ t.level)) :
    Inv hash t' ∧ ∀ k v, Holds hash t' k v ↔ Holds hash t k v := by
  have hm : ∀ i, i % 2 ^ t.level < 2 ^ t.level := fun i => Nat.mod_lt _ (Nat.two_pow_pos _)
  constructor
  · refine {
      lo := by omega, hi := by omega,
      old := fun i b hi hb => by rw [en]; exact h.old _ b (hm i) (ed i hi ▸ hb),
      lev := fun i b hi hb => by rw [eb]; have := h.lev _ b (hm i) (ed i hi ▸ hb); omega
      pat := ?_, cls := ?_ }
    · intro i b hi hb kv hkv
      have hb' := ed i hi ▸ hb
      rw [eb] at hkv ⊢
      rw [h.pat _ b (hm i) hb' kv hkv, mod_pow_mod _ (h.lev _ b (hm i) hb')]
    · intro i b hi hb j hj
      have hb' := ed i hi ▸ hb
      rw [ed j hj, eb, ← h.cls _ b (hm i) hb' _ (hm j), mod_pow_mod _ (h.lev _ b (hm i) hb'), mod_pow_mod _ (h.lev _ b (hm i) hb')]
  · intro k v
    unfold Holds
    rw [eb, ed _ (Nat.mod_lt _ (Nat.two_pow_pos _)), el, mod_pow_mod _ (Nat.le_succ _)]

theorem moveLoop_eq (hash : Word → Nat) (mask : Nat) (i : Nat) : ∀ (old new : Bucket), i ≤ old.items.length → i + new.items.length ≤ cap + 1 →
    moveLoop hash mask i old new =
      (⟨old.level, (old.items.take i).filter (fun kv => ¬(hash kv.1 &&& mask ≠ 0)) ++ old.items.drop i⟩,
       ⟨new.level, new.items ++ ((old.items.take i).filter (fun kv => hash kv.1 &&& mask ≠ 0)).reverse⟩) := by
  induction i with
  | zero => intro old new _ _; simp [moveLoop]
  | succ i ih =>
    intro old new h1 h2
    have hi : i < old.items.length := h1
    have hget : old.items.getD i (0, 0) = old.items[i] := by simp [hi]
    simp only [moveLoop, hget]
    rw [List.take_add_one, List.getElem?_eq_getElem hi]
    split_ifs with hb
    · have ha : (addTo new old.items[i].1 old.items[i].2) = { new with items := new.items ++ [old.items[i]] } := by
        unfold addTo; rw [if_neg (by omega)]
      rw [ih _ _ (by simp [removeFrom, List.length_eraseIdx, hi]; omega) (by rw [ha]; simp; omega)]
      rw [ha]
      have et : (old.items.eraseIdx i).take i = old.items.take i := by
        rw [List.eraseIdx_eq_take_drop_succ, List.take_append_of_le_length (by simp; omega), List.take_take]; simp
      have edr : (old.items.eraseIdx i).drop i = old.items.drop (i + 1) := by
        rw [List.eraseIdx_eq_take_drop_succ, List.drop_append]
        simp [Nat.min_eq_left (Nat.le_of_lt hi)]
      simp only [removeFrom, et, edr, Option.toList_some, List.filter_append, List.filter_cons, List.filter_nil, hb, not_true,
        decide_true, decide_false, if_true, List.append_assoc, List.reverse_append, List.reverse_cons, List.reverse_nil, List.nil_append,
        List.singleton_append, Bool.false_eq_true, if_false, ne_eq, not_false_eq_true]
    · rw [ih _ _ (by omega) (by omega)]
      rw [← List.getElem_cons_drop hi]
      simp only [Option.toList_some, List.filter_append, List.filter_cons, List.filter_nil, hb, not_false_eq_true,
        decide_true, decide_false, if_true, List.append_assoc, List.nil_append,
        List.singleton_append, Bool.false_eq_true, if_false, List.append_nil]

theorem or_low (mask low lev : Nat) (hm : mask = 1 <<< lev) (hl : low < 2 ^ lev) (j : Nat) :
    (j <<< (lev + 1)) ||| mask ||| low = j * 2 ^ (lev + 1) + 2 ^ lev + low := by
  subst hm
  rw [Nat.shiftLeft_eq, Nat.one_shiftLeft, Nat.mul_comm j, ← Nat.two_pow_add_eq_or_of_lt (i := lev + 1) (b := 2 ^ lev) (by rw [Nat.pow_succ]; have := Nat.two_pow_pos lev; omega),
    show 2 ^ (lev + 1) * j + 2 ^ lev = 2 ^ lev * (2 * j + 1) by rw [Nat.pow_succ, Nat.mul_add, Nat.mul_one, Nat.mul_assoc],
    ← Nat.two_pow_add_eq_or_of_lt hl]

theorem relink_eq (b nb lev mask low : Nat) (hm : mask = 1 <<< lev) (hl : low < 2 ^ lev) (n : Nat) : ∀ (dir : Nat → Option Nat) (j : Nat),
    (∀ q, j ≤ q → q < j + n → dir (q * 2 ^ (lev + 1) + 2 ^ lev + low) = some b) →
    ∃ d, relink b nb (lev + 1) mask low n dir j = some d ∧
      (∀ q, j ≤ q → q < j + n → d (q * 2 ^ (lev + 1) + 2 ^ lev + low) = some nb) ∧
      (∀ i, (∀ q, j ≤ q → q < j + n → i ≠ q * 2 ^ (lev + 1) + 2 ^ lev + low) → d i = dir i) := by
  induction n with
  | zero => intro dir j _; exact ⟨dir, rfl, by omega, fun _ _ => rfl⟩
  | succ n ih =>
    intro dir j h
    have hne : ∀ q, q ≠ j → q * 2 ^ (lev + 1) + 2 ^ lev + low ≠ j * 2 ^ (lev + 1) + 2 ^ lev + low := by
      intro q hq e
      have : q * 2 ^ (lev + 1) = j * 2 ^ (lev + 1) := by omega
      exact hq (Nat.eq_of_mul_eq_mul_right (Nat.two_pow_pos _) this)
    simp only [relink, or_low mask low lev hm hl]
    rw [if_neg (by simpa using h j (Nat.le_refl _) (by omega))]
    obtain ⟨d, e, d1, d2⟩ := ih (fun i => if i = j * 2 ^ (lev + 1) + 2 ^ lev + low then some nb else dir i) (j + 1) (by
      intro q h1 h2
      rw [if_neg (hne q (by omega))]
      exact h q (by omega) (by omega))
    refine ⟨d, e, ?_, ?_⟩
    · intro q h1 h2
      by_cases hq : q = j
      · subst hq
        rw [d2 _ (fun q' a1 a2 e => hne q' (by omega) e.symm)]
        simp
      · exact d1 q (by omega) (by omega)
    · intro i hi
      rw [d2 i (fun q a1 a2 => hi q (by omega) (by omega))]
      simp [hi j (Nat.le_refl _) (by omega)]

/-- A split bucket's table: `x` stays, `y` is new, and the directory entries of the class with the new bit set point to `y`. -/
structure Split (hash : Word → Nat) (t t' : Table) (b nb lev low : Nat) : Prop where
  level : t'.level = t.level
  next : t'.next = t.next + 1
  new : nb = t.next
  dir : ∀ i, i < 2 ^ t.level → t'.dir i = if i % 2 ^ (lev + 1) = 2 ^ lev + low then some nb else t.dir i
  oth : ∀ c, c ≠ b → c ≠ nb → t'.bucket c = t.bucket c
  lb : (t'.bucket b).level = lev + 1
  ln : (t'.bucket nb).level = lev + 1
  ib : ∀ kv, kv ∈ (t'.bucket b).items ↔ kv ∈ (t.bucket b).items ∧ hash kv.1 % 2 ^ (lev + 1) = hash kv.1 % 2 ^ lev
  ine : ∀ kv, kv ∈ (t'.bucket nb).items ↔ kv ∈ (t.bucket b).items ∧ hash kv.1 % 2 ^ (lev + 1) = 2 ^ lev + hash kv.1 % 2 ^ lev
  len : (t'.bucket b).items.length + (t'.bucket nb).items.length = (t.bucket b).items.length

theorem mod_succ_cases (i lev : Nat) : i % 2 ^ (lev + 1) = i % 2 ^ lev ∨ i % 2 ^ (lev + 1) = 2 ^ lev + i % 2 ^ lev := by
  by_cases h : i &&& 1 <<< lev ≠ 0
  · exact .inr ((and_bit i lev).1 h)
  · exact .inl ((not_bit i lev).1 h)

theorem inv_split {hash : Word → Nat} {t t' : Table} {b nb lev low i0 : Nat} (h : Inv hash t) (hi0 : i0 < 2 ^ t.level) (hb : t.dir i0 = some b)
    (hlev : (t.bucket b).level = lev) (hlt : lev < t.level) (hlow : low = i0 % 2 ^ lev) (s : Split hash t t' b nb lev low) :
    Inv hash t' ∧ ∀ k v, Holds hash t' k v ↔ Holds hash t k v := by
  have hp : 0 < 2 ^ lev := Nat.two_pow_pos lev
  have hll : low < 2 ^ lev := by rw [hlow]; exact Nat.mod_lt _ hp
  have hbn : b < t.next := h.old _ _ hi0 hb
  have hne : b ≠ nb := by have := s.new; omega
  have hfresh : ∀ i, i < 2 ^ t.level → t.dir i ≠ some nb := by
    intro i hi e
    have := h.old _ _ hi e
    have := s.new
    omega
  have hcls : ∀ j, j < 2 ^ t.level → (j % 2 ^ lev = low ↔ t.dir j = some b) := by
    intro j hj
    have := h.cls _ _ hi0 hb j hj
    rw [hlev, ← hlow] at this
    exact this
  have hmm : ∀ a, a % 2 ^ (lev + 1) % 2 ^ lev = a % 2 ^ lev := fun a => mod_pow_mod a (Nat.le_succ _)
  have hdb : ∀ j, j < 2 ^ t.level → (t'.dir j = some b ↔ j % 2 ^ (lev + 1) = low) := by
    intro j hj
    rw [s.dir j hj]
    have h1 := hcls j hj
    split_ifs with h2
    · constructor
      · intro e; simp only [Option.some.injEq] at e; omega
      · intro e; omega
    · rw [← h1]
      have := mod_succ_cases j lev
      have := Nat.mod_lt j hp
      constructor
      · intro e; omega
      · intro e; rw [← hmm j, e, Nat.mod_eq_of_lt hll]
  have hdn : ∀ j, j < 2 ^ t.level → (t'.dir j = some nb ↔ j % 2 ^ (lev + 1) = 2 ^ lev + low) := by
    intro j hj
    rw [s.dir j hj]
    split_ifs with h2
    · simp [h2]
    · simp [h2, hfresh j hj]
  have hdo : ∀ j c, j < 2 ^ t.level → c ≠ b → c ≠ nb → (t'.dir j = some c ↔ t.dir j = some c) := by
    intro j c hj h1 h2
    rw [s.dir j hj]
    split_ifs with h3
    · have : t.dir j = some b := (hcls j hj).1 (by rw [← hmm, h3, Nat.add_mod_left, Nat.mod_eq_of_lt hll])
      rw [this]
      simp only [Option.some.injEq]
      omega
    · rfl
  have hpat : ∀ kv ∈ (t.bucket b).items, hash kv.1 % 2 ^ lev = low := by
    intro kv hkv
    have := h.pat _ _ hi0 hb kv hkv
    rw [hlev, ← hlow] at this
    exact this
  constructor
  · refine {
      lo := by rw [s.level]; exact h.lo, hi := by rw [s.level]; exact h.hi, old := ?_, lev := ?_, pat := ?_, cls := ?_ }
    · intro i c hi hc
      rw [s.level] at hi
      rw [s.next]
      by_cases c1 : c = nb
      · have := s.new; omega
      · by_cases c2 : c = b
        · omega
        · have := h.old _ _ hi ((hdo i c hi c2 c1).1 hc); omega
    · intro i c hi hc
      rw [s.level] at hi ⊢
      by_cases c1 : c = nb
      · rw [c1, s.ln]; omega
      · by_cases c2 : c = b
        · rw [c2, s.lb]; omega
        · rw [s.oth c c2 c1]
          exact h.lev _ _ hi ((hdo i c hi c2 c1).1 hc)
    · intro i c hi hc kv hkv
      rw [s.level] at hi
      by_cases c1 : c = nb
      · subst c1
        obtain ⟨k1, k2⟩ := (s.ine kv).1 hkv
        rw [s.ln, (hdn i hi).1 hc, k2, hpat kv k1]
      · by_cases c2 : c = b
        · subst c2
          obtain ⟨k1, k2⟩ := (s.ib kv).1 hkv
          rw [s.lb, (hdb i hi).1 hc, k2, hpat kv k1]
        · rw [s.oth c c2 c1] at hkv ⊢
          exact h.pat _ _ hi ((hdo i c hi c2 c1).1 hc) kv hkv
    · intro i c hi hc j hj
      rw [s.level] at hi hj
      by_cases c1 : c = nb
      · subst c1
        rw [hdn j hj, s.ln, (hdn i hi).1 hc]
      · by_cases c2 : c = b
        · subst c2
          rw [hdb j hj, s.lb, (hdb i hi).1 hc]
        · rw [s.oth c c2 c1, hdo j c hj c2 c1]
          exact h.cls _ _ hi ((hdo i c hi c2 c1).1 hc) j hj
  · intro k v
    unfold Holds
    rw [s.level]
    have hk : hash k % 2 ^ t.level < 2 ^ t.level := Nat.mod_lt _ (Nat.two_pow_pos _)
    have e1 : hash k % 2 ^ t.level % 2 ^ (lev + 1) = hash k % 2 ^ (lev + 1) := mod_pow_mod _ hlt
    have e2 : hash k % 2 ^ t.level % 2 ^ lev = hash k % 2 ^ lev := mod_pow_mod _ (by omega)
    constructor
    · rintro ⟨c, hc, hkv⟩
      by_cases c1 : c = nb
      · subst c1
        refine ⟨b, ?_, ((s.ine _).1 hkv).1⟩
        rw [← hcls _ hk, e2]
        exact hpat _ ((s.ine _).1 hkv).1
      · by_cases c2 : c = b
        · subst c2
          refine ⟨c, ?_, ((s.ib _).1 hkv).1⟩
          rw [← hcls _ hk, e2]
          exact hpat _ ((s.ib _).1 hkv).1
        · rw [s.oth c c2 c1] at hkv
          exact ⟨c, (hdo _ c hk c2 c1).1 hc, hkv⟩
    · rintro ⟨c, hc, hkv⟩
      by_cases c2 : c = b
      · subst c2
        rcases mod_succ_cases (hash k) lev with hq | hq
        · refine ⟨c, ?_, (s.ib _).2 ⟨hkv, hq⟩⟩
          rw [hdb _ hk, e1, hq]
          exact hpat _ hkv
        · refine ⟨nb, ?_, (s.ine _).2 ⟨hkv, hq⟩⟩
          rw [hdn _ hk, e1, hq, hpat _ hkv]
      · have c1 : c ≠ nb := by rintro rfl; exact hfresh _ hk hc
        exact ⟨c, (hdo _ c hk c2 c1).2 hc, by rw [s.oth c c2 c1]; exact hkv⟩

/-- Why an insertion failed: an allocation made by it was refused, or the directory has its maximal size. -/
def Cause (mem : Nat → Bool) (t t' : Table) : Prop := (∃ i, t.tick ≤ i ∧ i < t'.tick ∧ mem i = false) ∨ t'.level = 22

theorem split_eq (mem : Nat → Bool) (hash : Word → Nat) (t : Table) (b : Nat) :
    split mem hash t b =
      if (t.bucket b).level = t.level then
        (if (grow mem t).2 then splitTail mem hash (grow mem t).1 b else ((grow mem t).1, none))
      else splitTail mem hash t b := by
  unfold split
  by_cases h1 : (t.bucket b).level = t.level
  · rw [if_pos h1, if_pos h1]
  · rw [if_neg h1, if_neg h1, if_pos rfl]

theorem filter_length (p : Word × Word → Prop) [DecidablePred p] (l : List (Word × Word)) :
    (l.filter (fun x => decide ¬(p x))).length + (l.filter (fun x => decide (p x))).length = l.length := by
  induction l with
  | nil => rfl
  | cons a l ih =>
    simp only [List.filter_cons]
    by_cases hq : p a <;> simp [hq] <;> simp at ih <;> omega

theorem splitTail_ok {mem : Nat → Bool} {hash : Word → Nat} {t t' : Table} {b i0 : Nat} {r : Option Nat} (h : Inv hash t) (hi0 : i0 < 2 ^ t.level)
    (hb : t.dir i0 = some b) (hlt : (t.bucket b).level < t.level) (h0 : 0 < (t.bucket b).items.length) (h8 : (t.bucket b).items.length ≤ 8)
    (hs : splitTail mem hash t b = (t', r)) :
    t'.tick = t.tick + 1 ∧
    ((r = none ∧ mem t.tick = false) ∨ ∃ nb, r = some nb ∧ Split hash t t' b nb (t.bucket b).level (i0 % 2 ^ (t.bucket b).level)) := by
  have hbn : b < t.next := h.old _ _ hi0 hb
  have hne : ¬(b = t.next) := by omega
  have hne' : ¬(t.next = b) := by omega
  obtain ⟨kv0, l0, hl0⟩ : ∃ kv0 l0, (t.bucket b).items = kv0 :: l0 := by
    cases hq : (t.bucket b).items with
    | nil => simp [hq] at h0
    | cons a l => exact ⟨a, l, rfl⟩
  have hlow : hash kv0.1 % 2 ^ (t.bucket b).level = i0 % 2 ^ (t.bucket b).level := h.pat _ _ hi0 hb kv0 (by rw [hl0]; exact List.mem_cons_self ..)
  generalize hlv : (t.bucket b).level = lev at *
  have hp : 0 < 2 ^ lev := Nat.two_pow_pos lev
  have hll : i0 % 2 ^ lev < 2 ^ lev := Nat.mod_lt _ hp
  unfold splitTail at hs
  simp only [newBucket, Table.setBucket, if_true, hne, if_false, hlv, hl0, List.getD_cons_zero, and_mask, hlow] at hs
  by_cases hm : mem t.tick = true
  case neg =>
    rw [if_neg hm] at hs
    simp only at hs
    cases hs
    exact ⟨rfl, .inl ⟨rfl, by simpa using hm⟩⟩
  rw [if_pos hm] at hs
  simp only [hne, if_false, if_true] at hs
  rw [← hl0, moveLoop_eq hash _ _ _ _ (by simp) (by simp [cap]; omega)] at hs
  simp only [List.take_length, List.drop_length, List.append_nil, List.nil_append] at hs
  have hit : ∀ (kv : Word × Word), kv ∈ (t.bucket b).items.filter (fun kv => decide ¬(hash kv.1 &&& 1 <<< lev ≠ 0)) ↔
      kv ∈ (t.bucket b).items ∧ hash kv.1 % 2 ^ (lev + 1) = hash kv.1 % 2 ^ lev := by
    intro kv
    rw [List.mem_filter, decide_eq_true_iff, not_bit]
  have hin : ∀ (kv : Word × Word), kv ∈ ((t.bucket b).items.filter (fun kv => decide (hash kv.1 &&& 1 <<< lev ≠ 0))).reverse ↔
      kv ∈ (t.bucket b).items ∧ hash kv.1 % 2 ^ (lev + 1) = 2 ^ lev + hash kv.1 % 2 ^ lev := by
    intro kv
    rw [List.mem_reverse, List.mem_filter, decide_eq_true_iff, and_bit]
  have hlen : ((t.bucket b).items.filter (fun kv => decide ¬(hash kv.1 &&& 1 <<< lev ≠ 0))).length +
      ((t.bucket b).items.filter (fun kv => decide (hash kv.1 &&& 1 <<< lev ≠ 0))).reverse.length = (t.bucket b).items.length := by
    rw [List.length_reverse]
    exact filter_length _ _
  have hcls : ∀ j, j < 2 ^ t.level → j % 2 ^ lev = i0 % 2 ^ lev → t.dir j = some b := by
    intro j hj e
    have := (h.cls _ _ hi0 hb j hj).1
    rw [hlv] at this
    exact this e
  have hor : 1 <<< lev ||| i0 % 2 ^ lev = 2 ^ lev + i0 % 2 ^ lev := by
    have := or_low (1 <<< lev) (i0 % 2 ^ lev) lev rfl hll 0
    simpa using this
  by_cases hle : lev + 1 = t.level
  · rw [if_pos hle] at hs
    cases hs
    refine ⟨rfl, .inr ⟨_, rfl, ?_⟩⟩
    refine {
      level := rfl, next := rfl, new := rfl, dir := ?_, oth := ?_, lb := by simp [hne], ln := by simp, ib := by simpa [hne] using hit,
      ine := by simpa using hin, len := by simpa [hne] using hlen }
    · intro i hi
      simp only [hor]
      rw [hle, Nat.mod_eq_of_lt hi]
    · intro c c1 c2
      simp [c1, c2]
  · rw [if_neg hle] at hs
    have hpow : 2 ^ (t.level - (lev + 1)) * 2 ^ (lev + 1) = 2 ^ t.level := by
      rw [← Nat.pow_add]; congr 1; omega
    have hp1 : 0 < 2 ^ (lev + 1) := Nat.two_pow_pos _
    have hps : 2 ^ (lev + 1) = 2 * 2 ^ lev := by rw [Nat.pow_succ]; omega
    obtain ⟨d, e, d1, d2⟩ := relink_eq b t.next lev (1 <<< lev) (i0 % 2 ^ lev) rfl hll (1 <<< (t.level - (lev + 1))) t.dir 0 (by
      intro q _ hq
      rw [Nat.one_shiftLeft, Nat.zero_add] at hq
      apply hcls
      · have : (q + 1) * 2 ^ (lev + 1) ≤ 2 ^ t.level := by rw [← hpow]; exact Nat.mul_le_mul_right _ hq
        rw [Nat.add_mul] at this
        omega
      · rw [hps, show q * (2 * 2 ^ lev) + 2 ^ lev + i0 % 2 ^ lev = i0 % 2 ^ lev + 2 ^ lev * (2 * q + 1) by
          rw [Nat.mul_add, Nat.mul_one, Nat.mul_left_comm, Nat.mul_comm q, Nat.mul_left_comm 2]; omega,
          Nat.add_mul_mod_self_left, Nat.mod_mod])
    rw [e] at hs
    simp only at hs
    cases hs
    refine ⟨rfl, .inr ⟨_, rfl, ?_⟩⟩
    refine {
      level := rfl, next := rfl, new := rfl, dir := ?_, oth := ?_, lb := by simp [hne], ln := by simp, ib := by simpa [hne] using hit,
      ine := by simpa using hin, len := by simpa [hne] using hlen }
    · intro i hi
      simp only
      split_ifs with hq
      · have hdm := Nat.div_add_mod i (2 ^ (lev + 1))
        have := d1 (i / 2 ^ (lev + 1)) (Nat.zero_le _) (by
          rw [Nat.one_shiftLeft, Nat.zero_add, Nat.div_lt_iff_lt_mul hp1, hpow]; exact hi)
        rw [Nat.mul_comm, Nat.add_assoc, ← hq, hdm] at this
        exact this
      · apply d2
        intro q _ _ e
        apply hq
        rw [e, Nat.add_assoc, Nat.mul_comm, Nat.mul_add_mod, Nat.mod_eq_of_lt (by omega)]
    · intro c c1 c2
      simp [c1, c2]

/-- The state of an insertion that has to split the bucket `b`. -/
structure Over (hash : Word → Nat) (t : Table) (b : Nat) : Prop where
  inv : Inv hash t
  reach : ∃ i, i < 2 ^ t.level ∧ t.dir i = some b
  len : (t.bucket b).items.length ≤ 8
  oth : ∀ i c, i < 2 ^ t.level → t.dir i = some c → c ≠ b → (t.bucket c).items.length ≤ 7

theorem over_grow {hash : Word → Nat} {t t' : Table} {b : Nat} (h : Over hash t b) (eb : t'.bucket = t.bucket) (en : t'.next = t.next)
    (el : t'.level = t.level + 1) (hl : t.level + 1 < 23) (ed : ∀ i, i < 2 ^ t'.level → t'.dir i = t.dir (i % 2 ^ t.level)) : Over hash t' b := by
  refine ⟨(inv_grow h.inv eb en el hl ed).1, ?_, by rw [eb]; exact h.len, ?_⟩
  · obtain ⟨i, hi, e⟩ := h.reach
    have h2 : i < 2 ^ t'.level := by rw [el, Nat.pow_succ]; omega
    exact ⟨i, h2, by rw [ed i h2, Nat.mod_eq_of_lt hi]; exact e⟩
  · intro i c hi hc hne
    rw [ed i hi] at hc
    rw [eb]
    exact h.oth _ c (Nat.mod_lt _ (Nat.two_pow_pos _)) hc hne

/-- What one round of the loop achieves: either a failure with a cause, or a table with the same contents in which only the two halves may
overflow and both are one level deeper. -/
theorem split_ok {mem : Nat → Bool} {hash : Word → Nat} {t t' : Table} {b : Nat} {r : Option Nat} (h : Over hash t b)
    (hov : cap < (t.bucket b).items.length) (hs : split mem hash t b = (t', r)) :
    t.tick ≤ t'.tick ∧
    ((r = none ∧ Cause mem t t') ∨
     ∃ nb, r = some nb ∧ (∀ k v, Holds hash t' k v ↔ Holds hash t k v) ∧
      ∃ c, c = (if (t'.bucket nb).items.length > cap then nb else b) ∧ Over hash t' c ∧ (t'.bucket c).level = (t.bucket b).level + 1) := by
  -- the part after a possible growth
  have tail : ∀ t0 : Table, Over hash t0 b → (t0.bucket b).level < t0.level → cap < (t0.bucket b).items.length →
      splitTail mem hash t0 b = (t', r) → t'.tick = t0.tick + 1 ∧
      ((r = none ∧ mem t0.tick = false) ∨
       ∃ nb, r = some nb ∧ (∀ k v, Holds hash t' k v ↔ Holds hash t0 k v) ∧
        ∃ c, c = (if (t'.bucket nb).items.length > cap then nb else b) ∧ Over hash t' c ∧ (t'.bucket c).level = (t0.bucket b).level + 1) := by
    intro t0 ho hlt hcap hs0
    obtain ⟨i0, hi0, hb0⟩ := ho.reach
    obtain ⟨ht, hr⟩ := splitTail_ok ho.inv hi0 hb0 hlt (by omega) ho.len hs0
    refine ⟨ht, ?_⟩
    rcases hr with hr | ⟨nb, hr, s⟩
    · exact .inl hr
    · refine .inr ⟨nb, hr, ?_⟩
      obtain ⟨hinv, hh⟩ := inv_split ho.inv hi0 hb0 rfl hlt rfl s
      refine ⟨hh, _, rfl, ?_⟩
      generalize hlv : (t0.bucket b).level = lev at *
      have hp : 0 < 2 ^ lev := Nat.two_pow_pos lev
      have hll : i0 % 2 ^ lev < 2 ^ lev := Nat.mod_lt _ hp
      have hpw : 2 ^ (lev + 1) ≤ 2 ^ t0.level := Nat.pow_le_pow_right (by omega) hlt
      have hps : 2 ^ (lev + 1) = 2 * 2 ^ lev := by rw [Nat.pow_succ]; omega
      have hlen := s.len
      have hlen8 := ho.len
      have hothers : ∀ i c, i < 2 ^ t'.level → t'.dir i = some c → c ≠ b → c ≠ nb → (t'.bucket c).items.length ≤ 7 := by
        intro i c hi hc c1 c2
        rw [s.level] at hi
        rw [s.dir i hi] at hc
        rw [s.oth c c1 c2]
        split_ifs at hc with hq
        · simp only [Option.some.injEq] at hc; omega
        · exact ho.oth i c hi hc c1
      split_ifs with hnb
      · refine ⟨⟨hinv, ?_, by omega, ?_⟩, s.ln⟩
        · refine ⟨2 ^ lev + i0 % 2 ^ lev, by rw [s.level]; omega, ?_⟩
          rw [s.dir _ (by omega), if_pos (Nat.mod_eq_of_lt (by omega))]
        · intro i c hi hc c1
          by_cases c2 : c = b
          · subst c2; simp only [cap] at hnb; omega
          · exact hothers i c hi hc c2 c1
      · refine ⟨⟨hinv, ?_, by omega, ?_⟩, s.lb⟩
        · have hcl := (ho.inv.cls _ _ hi0 hb0 (i0 % 2 ^ lev) (by omega)).1 (by rw [hlv, Nat.mod_mod])
          refine ⟨i0 % 2 ^ lev, by rw [s.level]; omega, ?_⟩
          rw [s.dir _ (by omega), if_neg, hcl]
          rw [Nat.mod_eq_of_lt (by omega)]
          omega
        · intro i c hi hc c1
          by_cases c2 : c = nb
          · subst c2; simp only [cap] at hnb; omega
          · exact hothers i c hi hc c1 c2
  rw [split_eq] at hs
  by_cases hl : (t.bucket b).level = t.level
  · rw [if_pos hl] at hs
    obtain ⟨g1, g2, g3⟩ := grow_ok (mem := mem) (t := t) (t' := (grow mem t).1) (ok := (grow mem t).2) h.inv.lo rfl
    rcases g3 with ⟨k1, k2, k3, k4, k5⟩ | ⟨k1, k2, k3, k4⟩
    · rw [k1, if_pos rfl] at hs
      have hog := over_grow h g1 g2 k2 k3 k4
      obtain ⟨a1, a2⟩ := tail _ hog (by rw [g1, k2]; omega) (by rw [g1]; exact hov) hs
      refine ⟨by omega, ?_⟩
      rcases a2 with ⟨a2, a3⟩ | ⟨nb, a2, a3, a4⟩
      · exact .inl ⟨a2, .inl ⟨_, by omega, by omega, a3⟩⟩
      · refine .inr ⟨nb, a2, fun k v => (a3 k v).trans ((inv_grow h.inv g1 g2 k2 k3 k4).2 k v), ?_⟩
        rw [g1] at a4
        exact a4
    · rw [k1, if_neg (by simp)] at hs
      cases hs
      have hhi := h.inv.hi
      refine ⟨by omega, .inl ⟨rfl, ?_⟩⟩
      rcases k4 with ⟨k4, _⟩ | ⟨k4, k5⟩
      · exact .inr (by omega)
      · exact .inl ⟨_, Nat.le_refl _, by omega, k4⟩
  · rw [if_neg hl] at hs
    obtain ⟨i0, hi0, hb0⟩ := h.reach
    have := h.inv.lev _ _ hi0 hb0
    obtain ⟨a1, a2⟩ := tail t h (by omega) hov hs
    refine ⟨by omega, ?_⟩
    rcases a2 with ⟨a2, a3⟩ | a2
    · exact .inl ⟨a2, .inl ⟨_, Nat.le_refl _, by omega, a3⟩⟩
    · exact .inr a2

/-- A table between operations. -/
structure Good (hash : Word → Nat) (t : Table) : Prop where
  inv : Inv hash t
  fill : ∀ i c, i < 2 ^ t.level → t.dir i = some c → (t.bucket c).items.length ≤ 7

theorem splitLoop_ok {mem : Nat → Bool} {hash : Word → Nat} (n : Nat) : ∀ {t t' : Table} {b : Nat} {r : Option Bool}, Over hash t b →
    23 ≤ n + (t.bucket b).level → splitLoop mem hash n t b = (t', r) →
    t.tick ≤ t'.tick ∧
    ((r = some false ∧ Cause mem t t') ∨ (r = some true ∧ Good hash t' ∧ ∀ k v, Holds hash t' k v ↔ Holds hash t k v)) := by
  induction n with
  | zero =>
    intro t t' b r h hn _
    obtain ⟨i0, hi0, hb0⟩ := h.reach
    have := h.inv.lev _ _ hi0 hb0
    have := h.inv.hi
    omega
  | succ n ih =>
    intro t t' b r h hn hs
    simp only [splitLoop] at hs
    split_ifs at hs with hov
    · cases hq : split mem hash t b with
      | mk t1 r1 =>
        rw [hq] at hs
        obtain ⟨a1, a2⟩ := split_ok h hov hq
        rcases a2 with ⟨rfl, a3⟩ | ⟨nb, rfl, a3, c, a4, a5, a6⟩
        · simp only at hs
          cases hs
          exact ⟨a1, .inl ⟨rfl, a3⟩⟩
        · simp only at hs
          rw [← a4] at hs
          obtain ⟨b1, b2⟩ := ih a5 (by omega) hs
          refine ⟨by omega, ?_⟩
          rcases b2 with ⟨b2, b3⟩ | ⟨b2, b3, b4⟩
          · refine .inl ⟨b2, ?_⟩
            rcases b3 with ⟨i, i1, i2⟩ | b3
            · exact .inl ⟨i, by omega, i2⟩
            · exact .inr b3
          · exact .inr ⟨b2, b3, fun k v => (b4 k v).trans (a3 k v)⟩
    · cases hs
      refine ⟨Nat.le_refl _, .inr ⟨rfl, ⟨h.inv, ?_⟩, fun _ _ => Iff.rfl⟩⟩
      intro i c hi hc
      by_cases hcb : c = b
      · subst hcb; simp only [cap] at hov; omega
      · exact h.oth i c hi hc hcb

theorem over_add {hash : Word → Nat} {t : Table} {b : Nat} {k v : Word} (h : Good hash t) (hb : t.dir (hash k % 2 ^ t.level) = some b) :
    Over hash (t.setBucket b (addTo (t.bucket b) k v)) b ∧
    ∀ k' v', Holds hash (t.setBucket b (addTo (t.bucket b) k v)) k' v' ↔ (k' = k ∧ v' = v) ∨ Holds hash t k' v' := by
  have hk : hash k % 2 ^ t.level < 2 ^ t.level := Nat.mod_lt _ (Nat.two_pow_pos _)
  have h7 := h.fill _ _ hk hb
  have ha : addTo (t.bucket b) k v = { t.bucket b with items := (t.bucket b).items ++ [(k, v)] } := by
    unfold addTo; rw [if_neg (by simp only [cap]; omega)]
  rw [ha]
  have hlev : ∀ c, ((t.setBucket b { t.bucket b with items := (t.bucket b).items ++ [(k, v)] }).bucket c).level = (t.bucket c).level := by
    intro c
    simp only [Table.setBucket]
    split_ifs with hc
    · rw [hc]
    · rfl
  have hit : ∀ c kv, kv ∈ ((t.setBucket b { t.bucket b with items := (t.bucket b).items ++ [(k, v)] }).bucket c).items ↔
      kv ∈ (t.bucket c).items ∨ (c = b ∧ kv = (k, v)) := by
    intro c kv
    simp only [Table.setBucket]
    split_ifs with hc
    · simp [hc]
    · simp [hc]
  refine ⟨⟨?_, ⟨_, hk, hb⟩, ?_, ?_⟩, ?_⟩
  · refine {
      lo := h.inv.lo, hi := h.inv.hi, old := h.inv.old, lev := ?_, pat := ?_, cls := ?_ }
    · intro i c hi hc
      rw [hlev]
      exact h.inv.lev i c hi hc
    · intro i c hi hc kv hkv
      rw [hlev]
      rcases (hit c kv).1 hkv with h1 | ⟨rfl, rfl⟩
      · exact h.inv.pat i c hi hc kv h1
      · have h1 := (h.inv.cls _ _ hi hc _ hk).2 hb
        rw [← h1, mod_pow_mod _ (h.inv.lev i c hi hc)]
    · intro i c hi hc j hj
      rw [hlev]
      exact h.inv.cls i c hi hc j hj
  · simp [Table.setBucket]; omega
  · intro i c hi hc hne
    have : ((t.setBucket b { t.bucket b with items := (t.bucket b).items ++ [(k, v)] }).bucket c) = t.bucket c := by
      simp only [Table.setBucket, hne, if_false]
    rw [this]
    exact h.fill i c hi hc
  · intro k' v'
    unfold Holds
    constructor
    · rintro ⟨c, hc, hkv⟩
      rcases (hit c _).1 hkv with h1 | ⟨rfl, h1⟩
      · exact .inr ⟨c, hc, h1⟩
      · exact .inl (Prod.mk.inj h1)
    · rintro (⟨rfl, rfl⟩ | ⟨c, hc, hkv⟩)
      · exact ⟨b, hb, (hit _ _).2 (.inr ⟨rfl, rfl⟩)⟩
      · exact ⟨c, hc, (hit _ _).2 (.inl hkv)⟩

/-- The invariant and the effect of an insertion. -/
theorem addkey_ok {mem : Nat → Bool} {hash : Word → Nat} {t t' : Table} {k v : Word} {r : Option Bool} (h : Good hash t)
    (hs : addkey mem hash t k v = (t', r)) :
    t.tick ≤ t'.tick ∧
    ((r = some false ∧ Cause mem t t') ∨
     (r = some true ∧ Good hash t' ∧ ∀ k' v', Holds hash t' k' v' ↔ (k' = k ∧ v' = v) ∨ Holds hash t k' v')) := by
  unfold addkey at hs
  simp only [and_mask] at hs
  have hk : hash k % 2 ^ t.level < 2 ^ t.level := Nat.mod_lt _ (Nat.two_pow_pos _)
  cases hd : t.dir (hash k % 2 ^ t.level) with
  | some b =>
    rw [hd] at hs
    simp only at hs
    obtain ⟨h1, h2⟩ := over_add (v := v) h hd
    obtain ⟨a1, a2⟩ := splitLoop_ok 64 h1 (by omega) hs
    refine ⟨a1, ?_⟩
    rcases a2 with ⟨a2, a3⟩ | ⟨a2, a3, a4⟩
    · exact .inl ⟨a2, a3⟩
    · exact .inr ⟨a2, a3, fun k' v' => (a4 k' v').trans (h2 k' v')⟩
  | none =>
    rw [hd] at hs
    simp only [newBucket] at hs
    by_cases hm : mem t.tick = true
    case neg =>
      rw [if_neg hm] at hs
      simp only at hs
      cases hs
      exact ⟨Nat.le_succ _, .inl ⟨rfl, .inl ⟨_, Nat.le_refl _, Nat.lt_succ_self _, by simpa using hm⟩⟩⟩
    rw [if_pos hm] at hs
    simp only [Table.setBucket, if_true] at hs
    rw [show addTo ⟨t.level, []⟩ k v = ⟨t.level, [(k, v)]⟩ from rfl] at hs
    cases hs
    have hdir : ∀ i c, i < 2 ^ t.level → (if i = hash k % 2 ^ t.level then some t.next else t.dir i) = some c →
        (i = hash k % 2 ^ t.level ∧ c = t.next) ∨ (i ≠ hash k % 2 ^ t.level ∧ c < t.next ∧ c ≠ t.next ∧ t.dir i = some c) := by
      intro i c hi hc
      split_ifs at hc with h1
      · exact .inl ⟨h1, (Option.some.inj hc).symm⟩
      · have := h.inv.old i c hi hc
        exact .inr ⟨h1, this, by omega, hc⟩
    refine ⟨Nat.le_succ _, .inr ⟨rfl, ⟨?_, ?_⟩, ?_⟩⟩
    · refine {
        lo := h.inv.lo, hi := h.inv.hi, old := ?_, lev := ?_, pat := ?_, cls := ?_ }
      · intro i c hi hc
        rcases hdir i c hi hc with ⟨_, rfl⟩ | ⟨_, h1, _⟩
        · exact Nat.lt_succ_self _
        · exact Nat.lt_succ_of_lt h1
      · intro i c hi hc
        rcases hdir i c hi hc with ⟨_, rfl⟩ | ⟨_, _, h2, h3⟩
        · simp
        · simp only [h2, if_false]
          exact h.inv.lev i c hi h3
      · intro i c hi hc kv hkv
        rcases hdir i c hi hc with ⟨h1, rfl⟩ | ⟨_, _, h2, h3⟩
        · simp only [if_true, List.mem_singleton] at hkv ⊢
          rw [hkv, h1, Nat.mod_mod]
        · simp only [h2, if_false] at hkv ⊢
          exact h.inv.pat i c hi h3 kv hkv
      · intro i c hi hc j hj
        rcases hdir i c hi hc with ⟨h1, rfl⟩ | ⟨h0, _, h2, h3⟩
        · simp only [if_true] at hj ⊢
          rw [Nat.mod_eq_of_lt hj, Nat.mod_eq_of_lt hi, h1]
          split_ifs with h4
          · simp [h4]
          · constructor
            · intro h5; exact absurd h5 h4
            · intro h5
              have := h.inv.old j _ hj h5
              omega
        · simp only [h2, if_false]
          rw [h.inv.cls i c hi h3 j hj]
          split_ifs with h4
          · subst h4
            simp only [hd, Option.some.injEq, reduceCtorEq, false_iff]
            omega
          · rfl
    · intro i c hi hc
      rcases hdir i c hi hc with ⟨_, rfl⟩ | ⟨_, _, h2, h3⟩
      · simp
      · simp only [h2, if_false]
        exact h.fill i c hi h3
    · intro k' v'
      unfold Holds
      simp only
      constructor
      · rintro ⟨c, hc, hkv⟩
        rcases hdir _ c (Nat.mod_lt _ (Nat.two_pow_pos _)) hc with ⟨_, rfl⟩ | ⟨_, _, h2, h3⟩
        · simp only [if_true, List.mem_singleton, Prod.mk.injEq] at hkv
          exact .inl hkv
        · simp only [h2, if_false] at hkv
          exact .inr ⟨c, h3, hkv⟩
      · rintro (⟨rfl, rfl⟩ | ⟨c, hc, hkv⟩)
        · exact ⟨t.next, by simp, by simp⟩
        · have h1 := h.inv.old _ c (Nat.mod_lt _ (Nat.two_pow_pos _)) hc
          refine ⟨c, ?_, ?_⟩
          · rw [if_neg]
            · exact hc
            · intro e; rw [e, hd] at hc; cases hc
          · rw [if_neg (by omega), if_neg (by omega)]
            exact hkv

/-- Histories: a table was created and filled by successful insertions (`kvs`, latest first). `mem` decides which allocations succeed. -/
inductive Hist (mem : Nat → Bool) (hash : Word → Nat) : Table → List (Word × Word) → Prop
  | init {t} : init mem = some t → Hist mem hash t []
  | add {t t' kvs} (k v : Word) : Hist mem hash t kvs → addkey mem hash t k v = (t', some true) → Hist mem hash t' ((k, v) :: kvs)

theorem hist_good {mem : Nat → Bool} {hash : Word → Nat} {t : Table} {kvs : List (Word × Word)} (h : Hist mem hash t kvs) :
    Good hash t ∧ ∀ k v, Holds hash t k v ↔ (k, v) ∈ kvs := by
  induction h with
  | init h =>
    unfold init grow at h
    by_cases h0 : mem 0 = true
    case neg => rw [if_neg h0] at h; cases h
    by_cases h1 : mem 1 = true
    case neg => simp [h0, h1, maxLevel] at h
    by_cases h2 : mem 2 = true
    case neg => simp [h0, h1, h2, maxLevel] at h
    simp [h0, h1, h2, maxLevel] at h
    subst h
    have hn : ∀ (i b : Nat), (none : Option Nat) = some b → False := by intro i b e; cases e
    refine ⟨⟨⟨Nat.le_refl _, by simp, ?_, ?_, ?_, ?_⟩, ?_⟩, ?_⟩
    · exact fun i b _ e => (hn i b e).elim
    · exact fun i b _ e => (hn i b e).elim
    · exact fun i b _ e => (hn i b e).elim
    · exact fun i b _ e => (hn i b e).elim
    · exact fun i b _ e => (hn i b e).elim
    · intro k v
      simp [Holds]
  | add k v _ hs ih =>
    obtain ⟨_, ⟨h1, _⟩ | ⟨_, h2, h3⟩⟩ := addkey_ok ih.1 hs
    · cases h1
    · refine ⟨h2, fun k' v' => ?_⟩
      rw [h3, ih.2, List.mem_cons, Prod.mk.injEq]

theorem getkey_holds {hash : Word → Nat} {t : Table} {k : Word} :
    (∀ v, getkey hash t k = some v → Holds hash t k v) ∧ (getkey hash t k = none → ∀ v, ¬Holds hash t k v) := by
  unfold getkey Holds
  simp only [and_mask]
  cases hd : t.dir (hash k % 2 ^ t.level) with
  | none => simp
  | some b =>
    simp only [Option.map_eq_some_iff, Option.map_eq_none_iff, List.find?_eq_none, Option.some.injEq, exists_eq_left']
    constructor
    · rintro v ⟨⟨k', v'⟩, h1, rfl⟩
      have := List.find?_some h1
      simp only [beq_iff_eq] at this
      subst this
      exact List.mem_of_find?_eq_some h1
    · intro h v hv
      simpa using h _ hv

/-- C30: after any history of successful insertions, a lookup gives a value inserted under that key, and reports the key absent exactly if it
was never inserted — for every hash function and through all bucket splits and directory doublings. -/
theorem C30_lookup {mem : Nat → Bool} {hash : Word → Nat} {t : Table} {kvs : List (Word × Word)} (h : Hist mem hash t kvs) (k : Word) :
    (∀ v, getkey hash t k = some v → (k, v) ∈ kvs) ∧ (getkey hash t k = none ↔ ∀ v, (k, v) ∉ kvs) := by
  obtain ⟨_, hh⟩ := hist_good h
  obtain ⟨g1, g2⟩ := getkey_holds (hash := hash) (t := t) (k := k)
  refine ⟨fun v e => (hh k v).1 (g1 v e), fun e v hv => g2 e v ((hh k v).2 hv), fun e => ?_⟩
  cases hg : getkey hash t k with
  | none => rfl
  | some v => exact absurd ((hh k v).1 (g1 v hg)) (e v)

/-- C30: if the keys inserted are distinct, the table is exactly the map of the inserted pairs. -/
theorem C30_map {mem : Nat → Bool} {hash : Word → Nat} {t : Table} {kvs : List (Word × Word)} (h : Hist mem hash t kvs)
    (hd : (kvs.map Prod.fst).Nodup) (k v : Word) : getkey hash t k = some v ↔ (k, v) ∈ kvs := by
  obtain ⟨h1, h2⟩ := C30_lookup h k
  refine ⟨h1 v, fun hv => ?_⟩
  cases hg : getkey hash t k with
  | none => exact absurd hv (h2.1 hg v)
  | some w =>
    have e := List.inj_on_of_nodup_map hd (h1 w hg) hv rfl
    rw [(Prod.mk.inj e).2]

/-- C30: an insertion ends, and it fails only if one of its own allocations was refused or the directory cannot grow any more. -/
theorem C30_terminates {mem : Nat → Bool} {hash : Word → Nat} {t : Table} {kvs : List (Word × Word)} (h : Hist mem hash t kvs) (k v : Word) :
    (addkey mem hash t k v).2 = some true ∨
    ((addkey mem hash t k v).2 = some false ∧
      ((∃ i, t.tick ≤ i ∧ i < (addkey mem hash t k v).1.tick ∧ mem i = false) ∨ (addkey mem hash t k v).1.level = 22)) := by
  obtain ⟨_, h1 | h1⟩ := addkey_ok (hist_good h).1 (rfl : addkey mem hash t k v = ((addkey mem hash t k v).1, (addkey mem hash t k v).2))
  · exact .inr h1
  · exact .inl h1.1

/-- Insert the pairs of a list, if all insertions succeed. -/
def addAll (mem : Nat → Bool) (hash : Word → Nat) : Table → List (Word × Word) → Option Table
  | t, [] => some t
  | t, (k, v) :: l =>
    match addkey mem hash t k v with
    | (t', some true) => addAll mem hash t' l
    | _ => none

theorem hist_addAll {mem : Nat → Bool} {hash : Word → Nat} (l : List (Word × Word)) : ∀ {t t' : Table} {kvs : List (Word × Word)},
    Hist mem hash t kvs → addAll mem hash t l = some t' → Hist mem hash t' (l.reverse ++ kvs) := by
  induction l with
  | nil => intro t t' kvs h e; cases e; exact h
  | cons a l ih =>
    intro t t' kvs h e
    simp only [addAll] at e
    split at e
    · rename_i t1 hq
      have := ih (Hist.add a.1 a.2 h hq) e
      simpa using this
    · cases e

/-- Forty pairs whose keys are multiples of 8, as record offsets are. -/
def exPairs : List (Word × Word) := (List.range 40).map (fun i => (BitVec.ofNat 64 (8 * i + 8), BitVec.ofNat 64 (i * i)))

/-- With the code's hash function, forty insertions split buckets and double the directory, and all succeed. -/
theorem exHist : ∃ t, Hist (fun _ => true) rehash t exPairs.reverse ∧ t.level = 6 ∧ t.next = 17 := by
  obtain ⟨t0, h0⟩ : ∃ t0, init (fun _ => true) = some t0 := ⟨_, rfl⟩
  have : ((init (fun _ => true)).bind (addAll (fun _ => true) rehash · exPairs)).map (fun t => (t.level, t.next)) = some (6, 17) := by decide +kernel
  rw [h0, Option.bind_some, Option.map_eq_some_iff] at this
  obtain ⟨t, h1, h2⟩ := this
  have := hist_addAll exPairs (.init h0) h1
  rw [List.append_nil] at this
  exact ⟨t, this, (Prod.mk.inj h2).1, (Prod.mk.inj h2).2⟩

example : ∃ t, getkey rehash t 16 = some 1 ∧ getkey rehash t 17 = none := by
  obtain ⟨t, h, _⟩ := exHist
  refine ⟨t, (C30_map h (by decide +kernel) 16 1).2 (by decide +kernel), (C30_lookup h 17).2.2 ?_⟩
  intro v hv
  have : (17 : Word) ∈ exPairs.reverse.map Prod.fst := List.mem_map.2 ⟨_, hv, rfl⟩
  revert this
  decide +kernel

/-- The restriction to histories of *successful* insertions is needed: after an insertion that failed for lack of memory, the next insertion
into the same bucket reports success but the key is not in the table. (The fourth allocation, the growth of the directory, is refused.) -/
theorem C30_after_failure_counterexample :
    ∃ (mem : Nat → Bool) (t t1 t2 : Table) (kvs : List (Word × Word)), Hist mem BitVec.toNat t kvs ∧
      addkey mem BitVec.toNat t 14 1 = (t1, some false) ∧ addkey mem BitVec.toNat t1 16 1 = (t2, some true) ∧ getkey BitVec.toNat t2 16 = none := by
  let mem : Nat → Bool := fun i => i != 4
  let l : List (Word × Word) := (List.range 7).map (fun i => (BitVec.ofNat 64 (2 * i), 1))
  obtain ⟨t0, h0⟩ : ∃ t0, init mem = some t0 := ⟨_, rfl⟩
  have key : ((init mem).bind (addAll mem BitVec.toNat · l)).map (fun t =>
      ((addkey mem BitVec.toNat t 14 1).2, (addkey mem BitVec.toNat (addkey mem BitVec.toNat t 14 1).1 16 1).2,
        getkey BitVec.toNat (addkey mem BitVec.toNat (addkey mem BitVec.toNat t 14 1).1 16 1).1 16)) = some (some false, some true, none) := by
    decide +kernel
  rw [h0, Option.bind_some, Option.map_eq_some_iff] at key
  obtain ⟨t, h1, h2⟩ := key
  have hh := hist_addAll l (.init h0) h1
  simp only [Prod.mk.injEq] at h2
  exact ⟨mem, t, _, _, _, hh, Prod.ext rfl h2.1, Prod.ext rfl h2.2.1, h2.2.2⟩

end WG.GintHash
