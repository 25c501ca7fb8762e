import Verif.HashIndex.Lemmas
import Verif.Compare.Lemmas
import Mathlib.Tactic.Ring
/-!
# Equal key bytes mean equal values
-/
namespace WG.HashIndex

theorem extract_inj {n : Nat} {a b : BitVec n} {m : Nat} (hn : n = 8 * m) (h : ∀ i, i < m → a.extractLsb' (8 * i) 8 = b.extractLsb' (8 * i) 8) : a = b := by
  apply BitVec.eq_of_getLsbD_eq
  intro j hj
  have := congrArg (fun w => w.getLsbD (j % 8)) (h (j / 8) (by omega))
  simp only [BitVec.getLsbD_extractLsb'] at this
  have e : 8 * (j / 8) + j % 8 = j := by omega
  have l : j % 8 < 8 := by omega
  simpa [e, l] using this

theorem bytes8_inj {a b : Word} (h : bytes8 a = bytes8 b) : a = b := by
  refine extract_inj (m := 8) rfl ?_
  intro i hi
  exact (List.map_inj_left.1 h) i (List.mem_range.2 hi)

theorem bytes4_inj {a b : BitVec 32} (h : bytes4 a = bytes4 b) : a = b := by
  refine extract_inj (m := 4) rfl ?_
  intro i hi
  exact (List.map_inj_left.1 h) i (List.mem_range.2 hi)

theorem bytes8_length (a : Word) : (bytes8 a).length = 8 := by simp [bytes8]
theorem bytes4_length (a : BitVec 32) : (bytes4 a).length = 4 := by simp [bytes4]

theorem low32_inj {a b : Word} (ha : -2 ^ 31 ≤ a.toInt ∧ a.toInt < 2 ^ 31) (hb : -2 ^ 31 ≤ b.toInt ∧ b.toInt < 2 ^ 31)
    (h : a.setWidth 32 = b.setWidth 32) : a = b := by
  have h1 := congrArg BitVec.toNat h
  simp only [BitVec.toNat_setWidth] at h1
  apply BitVec.eq_of_toNat_eq
  rw [BitVec.toInt_eq_toNat_cond] at ha hb
  have := a.isLt
  have := b.isLt
  split at ha <;> split at hb <;> omega

theorem quot_aux {x u v : Int} {P : Nat} (h1 : 2 * (x * 10000 - u * P).natAbs < P) (h2 : 2 * (x * 10000 - v * P).natAbs < P) : u = v := by
  have hp : (0 : Int) ≤ P := Int.natCast_nonneg P
  rcases Int.lt_trichotomy u v with h | h | h
  · have := Int.mul_le_mul_of_nonneg_right (show u + 1 ≤ v by omega) hp
    rw [Int.add_mul] at this
    omega
  · exact h
  · have := Int.mul_le_mul_of_nonneg_right (show v + 1 ≤ u by omega) hp
    rw [Int.add_mul] at this
    omega

theorem log_bounds {n : Nat} (h0 : 0 < n) (h1 : n ≤ 8000000) :
    66 ≤ Nat.log2 (n * 2 ^ 80 / 10000) ∧ Nat.log2 (n * 2 ^ 80 / 10000) ≤ 89 := by
  have hne : n * 2 ^ 80 / 10000 ≠ 0 := by omega
  constructor
  · rw [Nat.le_log2 hne]
    omega
  · have := (Nat.log2_lt (k := 90) hne).2 (by omega)
    omega

theorem scale_bounds {n L : Nat} (h1 : 66 ≤ L) (h2 : L ≤ 89) (a1 : 2 ^ L ≤ n * 2 ^ 80 / 10000) (a2 : n * 2 ^ 80 / 10000 < 2 ^ (L + 1)) :
    2 ^ 52 ≤ n * 2 ^ (132 - L) / 10000 ∧ n * 2 ^ (132 - L) / 10000 < 2 ^ 53 := by
  have e1 : n * 2 ^ 80 = n * 2 ^ (132 - L) * 2 ^ (L - 52) := by
    rw [Nat.mul_assoc, ← Nat.pow_add]
    congr 2
    omega
  have e2 : 2 ^ L = 2 ^ 52 * 2 ^ (L - 52) := by
    rw [← Nat.pow_add]
    congr 1
    omega
  have hX : 0 < 2 ^ (L - 52) := Nat.two_pow_pos _
  rw [Nat.le_div_iff_mul_le (by decide), e1, e2] at a1
  rw [Nat.div_lt_iff_lt_mul (by decide), e1, Nat.pow_succ, e2] at a2
  rw [Nat.le_div_iff_mul_le (by decide), Nat.div_lt_iff_lt_mul (by decide)]
  generalize 2 ^ (L - 52) = X at *
  generalize n * 2 ^ (132 - L) = N at *
  constructor
  · refine Nat.le_of_mul_le_mul_right ?_ hX
    calc _ = 2 ^ 52 * X * 10000 := by ring
      _ ≤ _ := a1
  · refine Nat.lt_of_mul_lt_mul_right (a := X) ?_
    calc _ < _ := a2
      _ = _ := by ring

/-- The quotient is the nearest double: its distance to n/10000 is at most half a unit of the last place, 2^-s. -/
theorem quotMag_spec {n : Nat} (h0 : 0 < n) (h1 : n ≤ 8000000) : ∃ s m, 43 ≤ s ∧ s ≤ 66 ∧ 2 ^ 52 ≤ m ∧ m ≤ 2 ^ 53 ∧
    quotMag n = (1075 - s) * 2 ^ 52 + (m - 2 ^ 52) ∧ 2 * (m * 10000) ≤ 2 * (n * 2 ^ s) + 10000 ∧ 2 * (n * 2 ^ s) ≤ 2 * (m * 10000) + 10000 := by
  obtain ⟨l1, l2⟩ := log_bounds h0 h1
  have hne : n * 2 ^ 80 / 10000 ≠ 0 := by omega
  have a1 := (Nat.le_log2 hne).1 (Nat.le_refl _)
  have a2 : n * 2 ^ 80 / 10000 < 2 ^ (Nat.log2 (n * 2 ^ 80 / 10000) + 1) := (Nat.log2_lt hne).1 (Nat.lt_succ_self _)
  refine ⟨132 - Nat.log2 (n * 2 ^ 80 / 10000), _, by omega, by omega, ?_, ?_, by unfold quotMag; rw [if_neg (by omega)], ?_, ?_⟩
  all_goals
    generalize hL : Nat.log2 (n * 2 ^ 80 / 10000) = L at *
    have hq := scale_bounds l1 l2 a1 a2
    generalize n * 2 ^ (132 - L) = N at *
    by_cases hr : 10000 < 2 * (N % 10000) ∨ (2 * (N % 10000) = 10000 ∧ N / 10000 % 2 = 1)
    · rw [if_pos hr]
      omega
    · rw [if_neg hr]
      omega

theorem quotMag_value {n : Nat} (h1 : n ≤ 8000000) : quotMag n < 2 ^ 63 ∧
    2 * (ieeeMag (quotMag n) * 10000) < 2 * (n * 2 ^ 1074) + 2 ^ 1074 ∧ 2 * (n * 2 ^ 1074) < 2 * (ieeeMag (quotMag n) * 10000) + 2 ^ 1074 := by
  by_cases h0 : n = 0
  · subst h0
    have e : quotMag 0 = 0 := rfl
    have f : ieeeMag 0 = 0 := rfl
    rw [e, f]
    have : 0 < 2 ^ 1074 := Nat.two_pow_pos 1074
    omega
  · obtain ⟨s, m, s1, s2, m1, m2, e, b1, b2⟩ := quotMag_spec (Nat.pos_of_ne_zero h0) h1
    have hv : ieeeMag (quotMag n) = m * 2 ^ (1074 - s) := by
      rw [e]
      unfold ieeeMag
      dsimp only
      rcases Nat.lt_or_eq_of_le m2 with hm | hm
      · have d1 : ((1075 - s) * 2 ^ 52 + (m - 2 ^ 52)) / 2 ^ 52 = 1075 - s := by omega
        have d2 : ((1075 - s) * 2 ^ 52 + (m - 2 ^ 52)) % 2 ^ 52 = m - 2 ^ 52 := by omega
        rw [d1, d2, if_neg (by omega), show 2 ^ 52 + (m - 2 ^ 52) = m by omega, show 1075 - s - 1 = 1074 - s by omega]
      · subst hm
        have d1 : ((1075 - s) * 2 ^ 52 + (2 ^ 53 - 2 ^ 52)) / 2 ^ 52 = 1076 - s := by omega
        have d2 : ((1075 - s) * 2 ^ 52 + (2 ^ 53 - 2 ^ 52)) % 2 ^ 52 = 0 := by omega
        rw [d1, d2, if_neg (by omega), show 1076 - s - 1 = 1074 - s + 1 by omega, pow_succ]
        ring
    have hp : (2 : Nat) ^ 1074 = 2 ^ s * 2 ^ (1074 - s) := by rw [← Nat.pow_add]; congr 1; omega
    have hs : 2 ^ 43 ≤ 2 ^ s := Nat.pow_le_pow_right (by decide) s1
    have hx : 0 < 2 ^ (1074 - s) := Nat.two_pow_pos _
    refine ⟨by omega, ?_, ?_⟩
    · rw [hv, hp]
      generalize 2 ^ (1074 - s) = X at hx ⊢
      generalize 2 ^ s = S at b1 b2 hs ⊢
      have : 2 * (m * 10000) * X < (2 * (n * S) + S) * X := Nat.mul_lt_mul_of_pos_right (by omega) hx
      calc 2 * (m * X * 10000) = 2 * (m * 10000) * X := by ring
        _ < (2 * (n * S) + S) * X := this
        _ = _ := by ring
    · rw [hv, hp]
      generalize 2 ^ (1074 - s) = X at hx ⊢
      generalize 2 ^ s = S at b1 b2 hs ⊢
      have : 2 * (n * S) * X < (2 * (m * 10000) + S) * X := Nat.mul_lt_mul_of_pos_right (by omega) hx
      calc 2 * (n * (S * X)) = 2 * (n * S) * X := by ring
        _ < (2 * (m * 10000) + S) * X := this
        _ = _ := by ring

/-- The quotient is less than 1/20000 away from i/10000. -/
theorem quot_ok (i : Word) (h1 : -8000000 ≤ i.toInt) (h2 : i.toInt ≤ 8000000) :
    2 * (ieeeValue (quot i) * 10000 - i.toInt * (2 ^ 1074 : Nat)).natAbs < 2 ^ 1074 := by
  obtain ⟨a, b, c⟩ := quotMag_value (n := i.toInt.natAbs) (by omega)
  unfold quot ieeeValue
  generalize i.toInt = x at *
  generalize (2 : Nat) ^ 1074 = P at *
  rw [BitVec.toNat_ofNat]
  by_cases hx : x < 0
  · rw [if_pos hx, Nat.mod_eq_of_lt (by omega), if_pos (by omega), Nat.add_sub_cancel_left]
    generalize ieeeMag (quotMag x.natAbs) = y at *
    obtain ⟨n, rfl⟩ : ∃ n : Nat, x = -(n : Int) := ⟨x.natAbs, by omega⟩
    rw [Int.natAbs_neg, Int.natAbs_natCast] at b c
    have e : -(n : Int) * (P : Int) = -((n * P : Nat) : Int) := by push_cast; ring
    rw [e]
    omega
  · rw [if_neg hx, Nat.mod_eq_of_lt (by omega), if_neg (by omega)]
    generalize ieeeMag (quotMag x.natAbs) = y at *
    obtain ⟨n, rfl⟩ : ∃ n : Nat, x = (n : Int) := ⟨x.natAbs, by omega⟩
    rw [Int.natAbs_natCast] at b c
    have e : (n : Int) * (P : Int) = ((n * P : Nat) : Int) := by push_cast; ring
    rw [e]
    omega

theorem quot_inj {a b : Word} (ha : -8000000 ≤ a.toInt ∧ a.toInt ≤ 8000000)
    (hb : -8000000 ≤ b.toInt ∧ b.toInt ≤ 8000000) (h : quot a = quot b) : a = b := by
  have h1 := quot_ok a ha.1 ha.2
  have h2 := quot_ok b hb.1 hb.2
  rw [h] at h1
  exact BitVec.eq_of_toInt_eq (quot_aux h1 h2)

/-- What may follow a value: nothing, or a separator and the type byte of the next value. -/
def Tail (t : Key) : Prop := t = [] ∨ ∃ c u, t = 0#8 :: c :: u ∧ 1 ≤ c.toNat ∧ c.toNat ≤ 14

theorem split_zero {s s' t t' : Key} (hs : 0#8 ∉ s) (hs' : 0#8 ∉ s') (ht : t = [] ∨ ∃ u, t = 0#8 :: u) (ht' : t' = [] ∨ ∃ u, t' = 0#8 :: u)
    (h : s ++ t = s' ++ t') : s = s' ∧ t = t' := by
  induction s generalizing s' with
  | nil =>
    cases s' with
    | nil => exact ⟨rfl, h⟩
    | cons x s' =>
      rcases ht with rfl | ⟨u, rfl⟩
      · cases h
      · rw [List.nil_append, List.cons_append, List.cons.injEq] at h
        exact absurd (h.1 ▸ List.mem_cons_self) hs'
  | cons x s ih =>
    cases s' with
    | nil =>
      rcases ht' with rfl | ⟨u, rfl⟩
      · cases h
      · rw [List.nil_append, List.cons_append, List.cons.injEq] at h
        exact absurd (h.1 ▸ List.mem_cons_self) hs
    | cons y s' =>
      rw [List.cons_append, List.cons_append, List.cons.injEq] at h
      obtain ⟨e1, e2⟩ := ih (fun g => hs (List.mem_cons_of_mem _ g)) (fun g => hs' (List.mem_cons_of_mem _ g)) h.2
      exact ⟨by rw [h.1, e1], e2⟩

theorem Tail.zero {t : Key} (h : Tail t) : t = [] ∨ ∃ u, t = 0#8 :: u := by
  rcases h with h | ⟨c, u, h, _⟩
  · exact Or.inl h
  · exact Or.inr ⟨_, h⟩

/-- A string with an extra string is not confused with one without. -/
theorem ext_mixed {e s s' t t' : Key} (he : 0#8 ∉ e) (hs : 0#8 ∉ s) (hs' : 0#8 ∉ s') (hb : ∀ b l, s = b :: l → 14 < b.toNat) (ht : Tail t) (ht' : Tail t')
    (h : (e ++ 0#8 :: s) ++ t = s' ++ t') : False := by
  rw [List.append_assoc, List.cons_append] at h
  obtain ⟨_, h2⟩ := split_zero he hs' (Or.inr ⟨_, rfl⟩) ht'.zero h
  rcases ht' with rfl | ⟨c, u, rfl, c1, c2⟩
  · cases h2
  · rw [List.cons.injEq] at h2
    cases s with
    | cons b l =>
      have := hb b l rfl
      have h3 := h2.2
      rw [List.cons_append, List.cons.injEq] at h3
      rw [h3.1] at this
      omega
    | nil =>
      rcases ht with rfl | ⟨c', u', rfl, _⟩
      · cases h2.2
      · have h3 := h2.2
        rw [List.nil_append, List.cons.injEq] at h3
        rw [← h3.1] at c1
        simp at c1

theorem ext_inj {l l' : Option Key} {s s' t t' : Key} (hl : 0#8 ∉ l.getD []) (hl' : 0#8 ∉ l'.getD []) (hs : 0#8 ∉ s) (hs' : 0#8 ∉ s')
    (hb : l ≠ none → ∀ b u, s = b :: u → 14 < b.toNat) (hb' : l' ≠ none → ∀ b u, s' = b :: u → 14 < b.toNat) (ht : Tail t) (ht' : Tail t')
    (h : concatExtra l s ++ t = concatExtra l' s' ++ t') : l = l' ∧ s = s' ∧ t = t' := by
  cases l with
  | none =>
    cases l' with
    | none =>
      obtain ⟨a, b⟩ := split_zero hs hs' ht.zero ht'.zero h
      exact ⟨rfl, a, b⟩
    | some e' => exact (ext_mixed hl' hs' hs (hb' (by simp)) ht' ht h.symm).elim
  | some e =>
    cases l' with
    | none => exact (ext_mixed hl hs hs' (hb (by simp)) ht ht' h).elim
    | some e' =>
      simp only [concatExtra, List.append_assoc, List.cons_append] at h
      obtain ⟨a, b⟩ := split_zero hl hl' (Or.inr ⟨_, rfl⟩) (Or.inr ⟨_, rfl⟩) h
      rw [List.cons.injEq] at b
      obtain ⟨c, d⟩ := split_zero hs hs' ht.zero ht'.zero b.2
      simp only [Option.getD_some] at a
      exact ⟨by rw [a], c, d⟩

/-- The same value, or two values with the same type and content that are not records. -/
def SameVal (R : Reader) (a b : Word) : Prop := a = b ∨ (R.typ a = R.typ b ∧ R.typ a ≠ some .record ∧ payload R a = payload R b)

theorem one_inj {E : Env} {V : Word → Prop} (hV : Keyed E.R V) {a b : Word} (ha : V a) (hb : V b)
    (ha1 : hashable E a ≠ none) (hb1 : hashable E b ≠ none) {t t' : Key} (ht : Tail t) (ht' : Tail t')
    (h : bytesOf E a ++ t = bytesOf E b ++ t') : SameVal E.R a b ∧ t = t' := by
  unfold bytesOf at h
  unfold hashable at ha1 hb1 h
  cases hta : E.R.typ a with
  | none => rw [hta] at ha1; exact absurd rfl ha1
  | some ta =>
  cases htb : E.R.typ b with
  | none => rw [htb] at hb1; exact absurd rfl hb1
  | some tb =>
  rw [hta] at ha1 h
  rw [htb] at hb1 h
  have hT : ta = tb := by
    cases ta <;> cases tb <;> first
      | rfl
      | exact absurd rfl ha1
      | exact absurd rfl hb1
      | (simp at h)
  subst hT
  have key : (ta ≠ .record → payload E.R a = payload E.R b) → (ta = .record → a = b) → SameVal E.R a b := by
    intro h1 h2
    by_cases hr : ta = .record
    · exact Or.inl (h2 hr)
    · exact Or.inr ⟨by rw [hta, htb], by rw [hta]; simpa using hr, h1 hr⟩
  have fixed : ∀ {x y : Key}, x.length = y.length → x ++ t = y ++ t' → x = y ∧ t = t' := fun hl hh => List.append_inj hh hl
  cases ta with
  | blob => exact absurd rfl ha1
  | anonconst => exact absurd rfl ha1
  | null =>
    simp only [Option.getD_some] at h
    obtain ⟨_, e2⟩ := fixed (by simp) h
    exact ⟨key (fun _ => by simp [payload, hta, htb]) (fun g => by cases g), e2⟩
  | record =>
    simp only [Option.getD_some] at h
    obtain ⟨e1, e2⟩ := fixed (by simp [bytes8_length]) h
    exact ⟨Or.inl (bytes8_inj (List.cons.inj e1).2), e2⟩
  | int =>
    simp only [Option.getD_some] at h
    obtain ⟨e1, e2⟩ := fixed (by simp [bytes4_length]) h
    have := low32_inj (hV.int a ha hta) (hV.int b hb htb) (bytes4_inj (List.cons.inj e1).2)
    exact ⟨key (fun _ => by simp [payload, hta, htb, this]) (fun g => by cases g), e2⟩
  | double =>
    simp only [Option.getD_some] at h
    obtain ⟨e1, e2⟩ := fixed (by simp [bytes8_length]) h
    have := bytes8_inj (List.cons.inj e1).2
    exact ⟨key (fun _ => by simp [payload, hta, htb, this]) (fun g => by cases g), e2⟩
  | fixpoint =>
    simp only [Option.getD_some] at h
    obtain ⟨e1, e2⟩ := fixed (by simp [bytes8_length]) h
    have := quot_inj (hV.fix a ha hta) (hV.fix b hb htb) (bytes8_inj (List.cons.inj e1).2)
    exact ⟨key (fun _ => by simp [payload, hta, htb, this]) (fun g => by cases g), e2⟩
  | char =>
    simp only [Option.getD_some] at h
    obtain ⟨e1, e2⟩ := fixed (by simp [bytes4_length]) h
    have h2 := bytes4_inj (List.cons.inj e1).2
    have : decodeChar a = decodeChar b := by
      generalize decodeChar a = x at h2
      generalize decodeChar b = y at h2
      have := congrArg BitVec.toInt h2
      rw [BitVec.toInt_signExtend_of_le (by decide), BitVec.toInt_signExtend_of_le (by decide)] at this
      exact BitVec.eq_of_toInt_eq this
    exact ⟨key (fun _ => by simp [payload, hta, htb, this]) (fun g => by cases g), e2⟩
  | date =>
    simp only [Option.getD_some] at h
    obtain ⟨e1, e2⟩ := fixed (by simp [bytes4_length]) h
    have := bytes4_inj (List.cons.inj e1).2
    exact ⟨key (fun _ => by simp [payload, hta, htb, this]) (fun g => by cases g), e2⟩
  | time =>
    simp only [Option.getD_some] at h
    obtain ⟨e1, e2⟩ := fixed (by simp [bytes4_length]) h
    have := bytes4_inj (List.cons.inj e1).2
    exact ⟨key (fun _ => by simp [payload, hta, htb, this]) (fun g => by cases g), e2⟩
  | var =>
    simp only [Option.getD_some] at h
    obtain ⟨e1, e2⟩ := fixed (by simp [bytes4_length]) h
    have := low32_inj (hV.var a ha hta) (hV.var b hb htb) (bytes4_inj (List.cons.inj e1).2)
    exact ⟨key (fun _ => by simp only [payload, hta, htb, this]) (fun g => by cases g), e2⟩
  | str =>
    simp only [Option.getD_some, List.cons_append, List.cons.injEq] at h
    obtain ⟨e1, e2⟩ := split_zero (hV.str a ha) (hV.str b hb) ht.zero ht'.zero h.2
    exact ⟨key (fun _ => by simp [payload, hta, htb, e1]) (fun g => by cases g), e2⟩
  | uri =>
    simp only [Option.getD_some, List.cons_append, List.cons.injEq] at h
    obtain ⟨e0, e1, e2⟩ := ext_inj (hV.ordered.lang a ha) (hV.ordered.lang b hb) (hV.str a ha) (hV.str b hb)
      (hV.ext a ha (Or.inl hta)) (hV.ext b hb (Or.inl htb)) ht ht' h.2
    exact ⟨key (fun _ => by simp [payload, hta, htb, e0, e1]) (fun g => by cases g), e2⟩
  | xmlliteral =>
    simp only [Option.getD_some, List.cons_append, List.cons.injEq] at h
    obtain ⟨e0, e1, e2⟩ := ext_inj (hV.ordered.lang a ha) (hV.ordered.lang b hb) (hV.str a ha) (hV.str b hb)
      (hV.ext a ha (Or.inr hta)) (hV.ext b hb (Or.inr htb)) ht ht' h.2
    exact ⟨key (fun _ => by simp [payload, hta, htb, e0, e1]) (fun g => by cases g), e2⟩

/-- The first byte of a value is its type code. -/
theorem bytesOf_head {E : Env} {x : Word} (h : hashable E x ≠ none) : ∃ c u, bytesOf E x = c :: u ∧ 1 ≤ c.toNat ∧ c.toNat ≤ 14 := by
  unfold bytesOf
  unfold hashable at h ⊢
  cases hE : E.R.typ x with
  | none => rw [hE] at h; exact absurd rfl h
  | some t => cases t <;> rw [hE] at h <;> first | exact absurd rfl h | exact ⟨_, _, rfl, by decide, by decide⟩

/-- What follows the first value. -/
def rest (l : List Key) : Key := match l with
  | [] => []
  | l => 0#8 :: joined l

theorem joined_cons (b : Key) (l : List Key) : joined (b :: l) = b ++ rest l := by
  cases l with
  | nil => simp [joined, rest]
  | cons c l => rfl

theorem rest_tail {E : Env} {vs : List Word} (h : ∀ v ∈ vs, hashable E v ≠ none) : Tail (rest (vs.map (bytesOf E))) := by
  cases vs with
  | nil => exact Or.inl rfl
  | cons v vs =>
    obtain ⟨c, u, e, c1, c2⟩ := bytesOf_head (h v List.mem_cons_self)
    refine Or.inr ⟨c, u ++ rest (vs.map (bytesOf E)), ?_, c1, c2⟩
    show 0#8 :: joined (bytesOf E v :: vs.map (bytesOf E)) = _
    rw [joined_cons, e]
    rfl

theorem joined_inj {E : Env} {V : Word → Prop} (hV : Keyed E.R V) {as bs : List Word} (hl : as.length = bs.length)
    (ha : ∀ v ∈ as, V v) (hb : ∀ v ∈ bs, V v) (ha1 : ∀ v ∈ as, hashable E v ≠ none) (hb1 : ∀ v ∈ bs, hashable E v ≠ none)
    (h : joined (as.map (bytesOf E)) = joined (bs.map (bytesOf E))) : List.Forall₂ (SameVal E.R) as bs := by
  induction as generalizing bs with
  | nil => cases bs with
    | nil => exact .nil
    | cons b bs => cases hl
  | cons a as ih => cases bs with
    | nil => cases hl
    | cons b bs =>
      rw [List.map_cons, List.map_cons, joined_cons, joined_cons] at h
      have ha2 : ∀ v ∈ as, hashable E v ≠ none := fun v hv => ha1 v (List.mem_cons_of_mem _ hv)
      have hb2 : ∀ v ∈ bs, hashable E v ≠ none := fun v hv => hb1 v (List.mem_cons_of_mem _ hv)
      obtain ⟨h1, h2⟩ := one_inj hV (ha a List.mem_cons_self) (hb b List.mem_cons_self) (ha1 a List.mem_cons_self) (hb1 b List.mem_cons_self)
        (rest_tail ha2) (rest_tail hb2) h
      refine .cons h1 (ih (by simpa using hl) (fun v hv => ha v (List.mem_cons_of_mem _ hv)) (fun v hv => hb v (List.mem_cons_of_mem _ hv)) ha2 hb2 ?_)
      cases as with
      | nil => cases bs with
        | nil => rfl
        | cons b' bs => cases hl
      | cons a' as => cases bs with
        | nil => cases hl
        | cons b' bs => exact (List.cons.inj h2).2

theorem sameVal_eq {R : Reader} {V : Word → Prop} (hV : Ordered R V) {a b : Word} (ha : V a) (hb : V b) (h : SameVal R a b) : WG_COMPARE R a b = 0 := by
  rcases h with rfl | ⟨h1, h2, h3⟩
  · exact (cmp_antisymm hV a a ha ha).1
  · have h4 : R.typ b ≠ some .record := h1 ▸ h2
    rw [cmp_spec hV a b ha hb]
    have : specCmp R 7 a b = .eq := by
      rw [specCmp]
      simp [compareLex, compareOn, typeCode, h1, h3, lenKey, fieldsKey, isRec, h2, h4, List.compareLex]
    rw [this]
    rfl

theorem eq_sameVal {R : Reader} {V : Word → Prop} (hV : Ordered R V) {a b : Word} (ha : V a) (hb : V b) (h : WG_COMPARE R a b = 0) :
    R.typ a = R.typ b ∧ payload R a = payload R b := by
  rw [cmp_spec hV a b ha hb] at h
  have h : specCmp R 7 a b = .eq := by
    cases hc : specCmp R 7 a b <;> rw [hc] at h <;> first | rfl | cases h
  rw [specCmp] at h
  simp only [compareLex, compareOn, Ordering.then_eq_eq] at h
  have h1 : typeCode R a = typeCode R b := by simpa using h.1
  have h2 := Std.LawfulEqCmp.eq_of_compare (cmp := compare) h.2.1
  refine ⟨?_, h2⟩
  obtain ⟨ta, hta⟩ := hV.typ a ha
  obtain ⟨tb, htb⟩ := hV.typ b hb
  simp only [typeCode, hta, htb] at h1
  rw [hta, htb]
  congr 1
  cases ta <;> cases tb <;> first | rfl | (exact absurd h1 (by decide))

theorem dblKey_inj {x y : Word} (hx : x ≠ 0x8000000000000000#64) (hy : y ≠ 0x8000000000000000#64) (h : dblKey x = dblKey y) : x = y := by
  have hm : ∀ z : Word, (z &&& 0x7fffffffffffffff#64).toNat = z.toNat % 2 ^ 63 := by
    intro z
    rw [BitVec.toNat_and]
    exact Nat.and_two_pow_sub_one_eq_mod z.toNat 63
  have hx' : x.toNat ≠ 2 ^ 63 := fun g => hx (BitVec.eq_of_toNat_eq g)
  have hy' : y.toNat ≠ 2 ^ 63 := fun g => hy (BitVec.eq_of_toNat_eq g)
  unfold dblKey at h
  rw [hm, hm] at h
  apply BitVec.eq_of_toNat_eq
  have := x.isLt
  have := y.isLt
  cases ex : x.msb <;> cases ey : y.msb <;> simp only [ex, ey, if_true] at h <;>
    simp only [BitVec.msb_eq_decide, decide_eq_true_eq, decide_eq_false_iff_not] at ex ey <;> simp at h ex ey <;> omega

theorem canon_bytes {E : Env} {V : Word → Prop} (hV : Ordered E.R V) {a b : Word} (ha : V a) (hb : V b) (ca : Canon E.R a) (cb : Canon E.R b)
    (hs : 0#8 ∉ E.R.str a) (hs' : 0#8 ∉ E.R.str b) (h : WG_COMPARE E.R a b = 0) : hashable E a = hashable E b := by
  obtain ⟨h1, h2⟩ := eq_sameVal hV ha hb h
  have e1 : ∀ {x y : List (BitVec 8)}, byteInts x = byteInts y → x = y := byteInts_inj
  have ext : byteInts ((E.R.lang a).getD []) ++ 0 :: byteInts (E.R.str a) = byteInts ((E.R.lang b).getD []) ++ 0 :: byteInts (E.R.str b) →
      E.R.lang a = E.R.lang b ∧ E.R.str a = E.R.str b := by
    intro g
    have g' : byteInts ((E.R.lang a).getD [] ++ 0#8 :: E.R.str a) = byteInts ((E.R.lang b).getD [] ++ 0#8 :: E.R.str b) := by
      simpa [byteInts] using g
    obtain ⟨g1, g2⟩ := split_zero (hV.lang a ha) (hV.lang b hb) (Or.inr ⟨_, rfl⟩) (Or.inr ⟨_, rfl⟩) (e1 g')
    refine ⟨?_, (List.cons.inj g2).2⟩
    have c1 := ca.ext
    have c2 := cb.ext
    cases ea : E.R.lang a <;> cases eb : E.R.lang b <;> rw [ea, eb] at g1 <;> simp only [Option.getD_some, Option.getD_none] at g1
    · exact absurd (by rw [eb, ← g1]) c2
    · exact absurd (by rw [ea, g1]) c1
    · rw [g1]
  unfold hashable
  cases hta : E.R.typ a with
  | none => rw [← h1, hta]
  | some t =>
  have htb := h1.symm.trans hta
  rw [htb]
  unfold payload at h2
  rw [hta, htb] at h2
  have wd : ∀ {n : Nat} {x y : BitVec n}, ([x.toInt] : List Int) = [y.toInt] → x = y := fun g => BitVec.eq_of_toInt_eq (List.cons.inj g).1
  cases t with
  | null => rfl
  | record => exact absurd hta ca.rcd
  | int => dsimp only at h2 ⊢; rw [wd h2]
  | double =>
    dsimp only at h2 ⊢
    rw [dblKey_inj (ca.dbl hta) (cb.dbl htb) (List.cons.inj h2).1]
  | str => dsimp only at h2 ⊢; rw [e1 h2]
  | xmlliteral => dsimp only at h2 ⊢; rw [(ext h2).1, (ext h2).2]
  | uri => dsimp only at h2 ⊢; rw [(ext h2).1, (ext h2).2]
  | blob => rfl
  | char =>
    dsimp only at h2 ⊢
    have : decodeChar a = decodeChar b := by
      by_cases ea : decodeChar a = 0#8 <;> by_cases eb : decodeChar b = 0#8
      · rw [ea, eb]
      · rw [if_pos ea, if_neg eb] at h2; cases h2
      · rw [if_neg ea, if_pos eb] at h2; cases h2
      · rw [if_neg ea, if_neg eb] at h2
        exact BitVec.eq_of_toNat_eq (by exact_mod_cast (List.cons.inj h2).1)
    rw [this]
  | fixpoint => dsimp only at h2 ⊢; rw [wd h2]
  | date => dsimp only at h2 ⊢; rw [wd h2]
  | time => dsimp only at h2 ⊢; rw [wd h2]
  | anonconst => rfl
  | var => dsimp only at h2 ⊢; rw [wd h2]

end WG.HashIndex
