import Verif.Yajl.Tok
import Mathlib.Tactic.Ring
/-! # Strings and integers have the values of the grammar -/
namespace WG.Yajl
open WG.Recs (Byte)

theorem or_add {a b i : Nat} (h : b < 2 ^ i) (k : Nat) (ha : a = 2 ^ i * k) : a ||| b = a + b := by
  rw [ha, Nat.two_pow_add_eq_or_of_lt h]

theorem and3f (n : Nat) : n &&& 0x3f = n % 64 := Nat.and_two_pow_sub_one_eq_mod n 6

theorem or80 {n : Nat} (h : n < 64) : n ||| 0x80 = 0x80 + n := by
  rw [Nat.or_comm]; exact or_add (i := 7) (by omega) 1 rfl
theorem orc0 {n : Nat} (h : n < 32) : n ||| 0xc0 = 0xc0 + n := by
  rw [Nat.or_comm]; exact or_add (i := 5) (by omega) 6 rfl
theorem ore0 {n : Nat} (h : n < 16) : n ||| 0xe0 = 0xe0 + n := by
  rw [Nat.or_comm]; exact or_add (i := 4) (by omega) 14 rfl
theorem orf0 {n : Nat} (h : n < 8) : n ||| 0xf0 = 0xf0 + n := by
  rw [Nat.or_comm]; exact or_add (i := 3) (by omega) 30 rfl

theorem utf32to8_eq {n : Nat} (h : n < 0x200000) : utf32to8 n = utf8 n := by
  unfold utf32to8 utf8
  simp only [Nat.shiftRight_eq_div_pow, and3f]
  by_cases h1 : n < 0x80
  · rw [if_pos h1, if_pos h1]
  rw [if_neg h1, if_neg h1]
  by_cases h2 : n < 0x800
  · rw [if_pos h2, if_pos h2, orc0 (by omega), or80 (by omega)]
  rw [if_neg h2, if_neg h2]
  by_cases h3 : n < 0x10000
  · rw [if_pos h3, if_pos h3, ore0 (by omega), or80 (by omega), or80 (by omega)]
  rw [if_neg h3, if_neg h3, if_pos h, orf0 (by omega), or80 (by omega), or80 (by omega), or80 (by omega)]

theorem and_fc00 {n : Nat} (h : n < 0x10000) : n &&& 0xfc00 = 0xd800 ↔ 0xd800 ≤ n ∧ n < 0xdc00 := by
  have e : n &&& 0xfc00 = 2 ^ 10 * (n / 2 ^ 10 % 2 ^ 6) := by
    have h1 : (n &&& 0xfc00) = ((n >>> 10) &&& 0x3f) <<< 10 := by
      apply Nat.eq_of_testBit_eq
      intro i
      rw [Nat.testBit_shiftLeft, Nat.testBit_and, Nat.testBit_and, Nat.testBit_shiftRight, show (0xfc00 : Nat) = 0x3f <<< 10 by rfl, Nat.testBit_shiftLeft]
      by_cases hi : 10 ≤ i
      · rw [show 10 + (i - 10) = i by omega]; simp [hi]
      · simp [hi]
    rw [h1, and3f, Nat.shiftLeft_eq, Nat.shiftRight_eq_div_pow, Nat.mul_comm]; rfl
  rw [e]; omega

theorem pair_eq {n m : Nat} (h1 : 0xd800 ≤ n) (h2 : n < 0xdc00) (h3 : 0xdc00 ≤ m) (h4 : m < 0xe000) :
    ((n &&& 0x3f) <<< 10) ||| ((((n >>> 6) &&& 0xf) + 1) <<< 16) ||| (m &&& 0x3ff) = 0x10000 + (n - 0xd800) * 0x400 + (m - 0xdc00) := by
  have e1 : n &&& 0x3f = n % 64 := and3f n
  have e2 : (n >>> 6) &&& 0xf = n / 64 % 16 := by rw [Nat.shiftRight_eq_div_pow]; exact Nat.and_two_pow_sub_one_eq_mod _ 4
  have e3 : m &&& 0x3ff = m % 1024 := Nat.and_two_pow_sub_one_eq_mod m 10
  rw [e1, e2, e3, Nat.shiftLeft_eq, Nat.shiftLeft_eq, Nat.or_comm (n % 64 * 2 ^ 10)]
  rw [or_add (i := 16) (a := (n / 64 % 16 + 1) * 2 ^ 16) (b := n % 64 * 2 ^ 10) (by omega) (n / 64 % 16 + 1) (by omega),
    or_add (i := 10) (by omega) ((n / 64 % 16 + 1) * 64 + n % 64) (by omega)]
  omega

theorem decode_char {c : Byte} {l : List Byte} (h : c ≠ 0x5c#8) : decode (c :: l) = (decode l).map fun t => c :: t := by
  rw [decode.eq_def]; dsimp only; rw [if_neg h]

theorem decode_chars {u l s : List Byte} (h : ∀ c ∈ u, c ≠ 0x5c#8) (hl : decode l = some s) : decode (u ++ l) = some (u ++ s) := by
  induction u with
  | nil => exact hl
  | cons c u ih => rw [List.cons_append, decode_char (h c (by simp)), ih fun c hc => h c (by simp [hc])]; rfl

theorem decode_esc {d v : Byte} {l s : List Byte} (h : (d, v) ∈ shortEsc) (hl : decode l = some s) : decode (0x5c#8 :: d :: l) = some (v :: s) := by
  have h1 : d ≠ 0x75#8 := not_75 (List.mem_map.2 ⟨_, h, rfl⟩)
  rw [decode.eq_def]
  dsimp only
  rw [if_pos rfl, if_neg h1, unesc_iff d (d, v) h rfl, hl]
  rfl

theorem decode_hex {h l s : List Byte} {n : Nat} (hh : Hex4 h n) (hn : ¬ (0xd800 ≤ n ∧ n < 0xdc00)) (hl : decode l = some s) : decode (0x5c#8 :: 0x75#8 :: h ++ l) = some (utf8 n ++ s) := by
  have h1 := hex4_of hh
  have h2 := hex4_lt hh
  have h3 : ¬ (n &&& 0xfc00 = 0xd800) := by rw [and_fc00 h2]; exact hn
  cases hh with
  | mk =>
    rw [decode.eq_def]
    dsimp only [List.cons_append, List.nil_append]
    rw [if_pos rfl, if_pos rfl, h1]
    dsimp only
    rw [if_neg h3, hl, utf32to8_eq (by omega)]
    rfl

theorem decode_pair {h h' l s : List Byte} {n m : Nat} (hh : Hex4 h n) (h1 : 0xd800 ≤ n) (h2 : n < 0xdc00) (hh' : Hex4 h' m) (h3 : 0xdc00 ≤ m) (h4 : m < 0xe000)
    (hl : decode l = some s) : decode (0x5c#8 :: 0x75#8 :: h ++ 0x5c#8 :: 0x75#8 :: h' ++ l) = some (utf8 (0x10000 + (n - 0xd800) * 0x400 + (m - 0xdc00)) ++ s) := by
  have e1 := hex4_of hh
  have e2 := hex4_of hh'
  have h5 : n &&& 0xfc00 = 0xd800 := by rw [and_fc00 (by omega)]; exact ⟨h1, h2⟩
  have e3 := pair_eq h1 h2 h3 h4
  cases hh with
  | mk =>
    cases hh' with
    | mk =>
      rw [decode.eq_def]
      dsimp only [List.cons_append, List.nil_append]
      rw [if_pos rfl, if_pos rfl, e1]
      dsimp only
      rw [if_pos h5, if_pos rfl, if_pos rfl, e2]
      dsimp only
      rw [e3, hl, utf32to8_eq (by omega)]
      rfl

/-- The inside of a string of the grammar passes the lexer and is decoded. -/
theorem body_ok {raw s : List Byte} (h : Body raw s) : decode raw = some s ∧ ∃ e, LexBody e raw ∧ (e = false → s = raw) := by
  induction h with
  | nil => exact ⟨by rw [decode], false, .nil, fun _ => rfl⟩
  | char hu hc _ ih =>
    obtain ⟨h1, e, h2, h3⟩ := ih
    exact ⟨decode_chars (fun c h => (hc c h).2.2) h1, e, .char hu hc h2, fun he => by rw [h3 he]⟩
  | esc hd _ ih =>
    obtain ⟨h1, e, h2, h3⟩ := ih
    exact ⟨decode_esc hd h1, true, .esc (List.mem_map.2 ⟨_, hd, rfl⟩) h2, by simp⟩
  | hex hh hn _ ih =>
    obtain ⟨h1, e, h2, h3⟩ := ih
    exact ⟨decode_hex hh hn h1, true, .hex hh h2, by simp⟩
  | pair hh a b hh' c d _ ih =>
    obtain ⟨h1, e, h2, h3⟩ := ih
    refine ⟨decode_pair hh a b hh' c d h1, true, ?_, by simp⟩
    rw [List.append_assoc, List.cons_append (bs := _ ++ _), List.cons_append]
    exact .hex hh (.hex hh' h2)

theorem lexBody_hex {e : Bool} {raw b : List Byte} {m : Nat} {h' b' : List Byte} (hl : LexBody e raw) (hb : raw ++ 0x22#8 :: b = 0x5c#8 :: 0x75#8 :: h' ++ b') (hh : Hex4 h' m) :
    ∃ e' raw', raw = 0x5c#8 :: 0x75#8 :: h' ++ raw' ∧ LexBody e' raw' := by
  cases hl with
  | nil => simp at hb
  | @char u r' _ hu hc hr =>
    exfalso
    cases u with
    | nil => cases hu
    | cons c u =>
      rw [List.cons_append, List.cons_append, List.cons_append, List.cons.injEq] at hb
      exact (hc c (by simp)).2.2 hb.1
  | @esc d r' e' hd hr =>
    exfalso
    rw [List.cons_append, List.cons_append, List.cons_append, List.cons_append, List.cons.injEq, List.cons.injEq] at hb
    exact not_75 hd hb.2.1
  | @hex h r' n e' hh2 hr =>
    simp only [List.cons_append, List.append_assoc, List.cons.injEq, true_and] at hb
    obtain ⟨rfl, -⟩ := List.append_inj hb (by rw [hex4_len hh, hex4_len hh2])
    exact ⟨e', r', rfl, hr⟩

/-- What passes the lexer is the inside of a string of the grammar if high surrogates are followed by low ones. -/
theorem body_of : ∀ (n : Nat) {e : Bool} {raw b : List Byte}, raw.length ≤ n → LexBody e raw → Paired (raw ++ 0x22#8 :: b) → ∃ s, Body raw s := by
  have mono : ∀ {a t : List Byte}, Paired (a ++ t) → Paired t := by
    intro a t h x h' b n e
    exact h (a ++ x) h' b n (by rw [e]; simp)
  intro n
  induction n with
  | zero =>
    intro e raw b hn hl _
    rw [List.length_eq_zero_iff.1 (Nat.le_zero.1 hn)]
    exact ⟨[], .nil⟩
  | succ n ih =>
    intro e raw b hn hl hp
    cases hl with
    | nil => exact ⟨[], .nil⟩
    | @char u r _ hu hc hr =>
      have : 0 < u.length := by cases hu <;> simp
      obtain ⟨s, hs⟩ := ih (by rw [List.length_append] at hn; omega) hr (mono (a := u) (by simpa using hp))
      exact ⟨_, .char hu hc hs⟩
    | @esc d r e' hd hr =>
      simp only [List.length_cons] at hn
      obtain ⟨s, hs⟩ := ih (by omega) hr (mono (a := [0x5c#8, d]) (by simpa using hp))
      obtain ⟨⟨d', v⟩, h1, rfl⟩ := List.mem_map.1 hd
      exact ⟨_, .esc h1 hs⟩
    | @hex h r m e' hh hr =>
      simp only [List.length_cons, List.length_append] at hn
      by_cases hm : 0xd800 ≤ m ∧ m < 0xdc00
      · obtain ⟨h', m', b', e1, e2, e3, e4⟩ := hp [] h (r ++ 0x22#8 :: b) m (by simp) hh hm.1 hm.2
        obtain ⟨e', raw', rfl, hr'⟩ := lexBody_hex hr e1 e2
        simp only [List.length_cons, List.length_append] at hn
        obtain ⟨s, hs⟩ := ih (b := b) (by omega) hr' (mono (a := 0x5c#8 :: 0x75#8 :: h ++ 0x5c#8 :: 0x75#8 :: h') (by simpa using hp))
        exact ⟨_, by rw [← List.append_assoc]; exact .pair hh hm.1 hm.2 e2 e3 e4 hs⟩
      · obtain ⟨s, hs⟩ := ih (b := b) (by omega) hr (mono (a := 0x5c#8 :: 0x75#8 :: h) (by simpa using hp))
        exact ⟨_, .hex hh hm hs⟩

/-! ## Integers -/

theorem decVal_foldl (l : List Byte) (a : Nat) : l.foldl (fun a c => 10 * a + (c.toNat - 0x30)) a = a * 10 ^ l.length + decVal l := by
  induction l generalizing a with
  | nil => simp [decVal]
  | cons c l ih =>
    rw [List.foldl_cons, ih, show decVal (c :: l) = l.foldl (fun a c => 10 * a + (c.toNat - 0x30)) (10 * 0 + (c.toNat - 0x30)) from rfl, ih, List.length_cons, pow_succ]
    ring

theorem decVal_cons (c : Byte) (l : List Byte) : decVal (c :: l) = (c.toNat - 0x30) * 10 ^ l.length + decVal l := by
  rw [decVal, List.foldl_cons, decVal_foldl]; simp

theorem digit_sub (c : Byte) (h : Between 0x30 0x39 c) : c.zeroExtend 64 - 0x30#64 = BitVec.ofNat 64 (c.toNat - 0x30) := by
  obtain ⟨h1, h2⟩ := h
  apply BitVec.eq_of_toNat_eq
  simp only [BitVec.toNat_sub, BitVec.truncate_eq_setWidth, BitVec.toNat_setWidth, BitVec.toNat_ofNat]
  omega

theorem slt_ofNat {a b : Nat} (ha : a < 2 ^ 63) (hb : b < 2 ^ 63) : (BitVec.ofNat 64 a).slt (BitVec.ofNat 64 b) = decide (a < b) := by
  have ea : (BitVec.ofNat 64 a).toInt = a := by rw [BitVec.toInt_eq_toNat_cond, BitVec.toNat_ofNat, Nat.mod_eq_of_lt (by omega)]; rw [if_pos (by omega)]
  have eb : (BitVec.ofNat 64 b).toInt = b := by rw [BitVec.toInt_eq_toNat_cond, BitVec.toNat_ofNat, Nat.mod_eq_of_lt (by omega)]; rw [if_pos (by omega)]
  rw [BitVec.slt, ea, eb]
  congr 1
  exact propext (by omega)

theorem sub_ofNat {m n : Nat} (h : n ≤ m) (hm : m < 2 ^ 64) : BitVec.ofNat 64 m - BitVec.ofNat 64 n = BitVec.ofNat 64 (m - n) := by
  apply BitVec.eq_of_toNat_eq
  simp only [BitVec.toNat_sub, BitVec.toNat_ofNat]
  omega

/-- A difference that is negative but above -2^63 is below every natural number. -/
theorem slt_neg {m n d : Nat} (h : m < n) (hn : n ≤ m + 2 ^ 62) (hd : d < 2 ^ 63) :
    (BitVec.ofNat 64 m - BitVec.ofNat 64 n).slt (BitVec.ofNat 64 d) = true := by
  have e1 : (BitVec.ofNat 64 m - BitVec.ofNat 64 n).toInt < 0 := by
    rw [BitVec.toInt_eq_toNat_cond]
    simp only [BitVec.toNat_sub, BitVec.toNat_ofNat]
    split_ifs <;> omega
  have e2 : 0 ≤ (BitVec.ofNat 64 d).toInt := by
    rw [BitVec.toInt_eq_toNat_cond, BitVec.toNat_ofNat, Nat.mod_eq_of_lt (by omega), if_pos (by omega)]; omega
  rw [BitVec.slt, decide_eq_true_eq]
  omega

/-- One digit. -/
theorem digit_step (m lim a : Nat) (c : Byte) (l : List Byte) (hm : m < 2 ^ 63) (h62 : 2 ^ 62 ≤ m) (ha : a ≤ lim) (hlim : lim * 10 ≤ m + 2 ^ 62) (hc : Between 0x30 0x39 c) :
    (if (BitVec.ofNat 64 m - BitVec.ofNat 64 a * 10#64).slt (c.zeroExtend 64 - 0x30#64) then none
      else if c < 0x30#8 ∨ c > 0x39#8 then none
      else parseDigits l (BitVec.ofNat 64 a * 10#64 + (c.zeroExtend 64 - 0x30#64))) =
    if a * 10 + (c.toNat - 0x30) ≤ m then parseDigits l (BitVec.ofNat 64 (a * 10 + (c.toNat - 0x30))) else none := by
  obtain ⟨c1, c2⟩ := hc
  have hmul : BitVec.ofNat 64 a * 10#64 = BitVec.ofNat 64 (a * 10) := by rw [BitVec.ofNat_mul]
  have hn : ¬ (c < 0x30#8 ∨ c > 0x39#8) := by
    rw [BitVec.lt_def, gt_iff_lt, BitVec.lt_def, BitVec.toNat_ofNat, BitVec.toNat_ofNat]; omega
  rw [hmul, digit_sub c ⟨c1, c2⟩, if_neg hn]
  by_cases h2 : a * 10 ≤ m
  · rw [sub_ofNat h2 (by omega), slt_ofNat (by omega) (by omega)]
    by_cases h3 : m - a * 10 < c.toNat - 0x30
    · rw [if_pos (by simpa using h3), if_neg (by omega)]
    · rw [if_neg (by simpa using h3), if_pos (by omega), ← BitVec.ofNat_add]
  · rw [if_pos (slt_neg (by omega) (by omega) (by omega)), if_neg (by omega)]

/-- The loop over the digits: the value, or an error if it is 2^63 or more. -/
theorem parseDigits_ok : ∀ (l : List Byte) (a : Nat), (∀ c ∈ l, Between 0x30 0x39 c) → a < 2 ^ 63 →
    parseDigits l (BitVec.ofNat 64 a) = if a * 10 ^ l.length + decVal l < 2 ^ 63 then some (BitVec.ofNat 64 (a * 10 ^ l.length + decVal l)) else none
  | [], a, _, ha => by
    rw [parseDigits, show a * 10 ^ ([] : List Byte).length + decVal [] = a by simp [decVal], if_pos ha]
  | c :: l, a, hl, ha => by
    have hc := hl c (by simp)
    have hpow : 0 < 10 ^ l.length := Nat.pow_pos (by omega)
    rw [parseDigits, decVal_cons, List.length_cons, slt_ofNat (by omega) ha]
    have hval : a * 10 ^ (l.length + 1) + ((c.toNat - 0x30) * 10 ^ l.length + decVal l) = (a * 10 + (c.toNat - 0x30)) * 10 ^ l.length + decVal l := by
      rw [pow_succ]; ring
    rw [hval]
    have hbig : 2 ^ 63 ≤ a * 10 + (c.toNat - 0x30) → ¬ (a * 10 + (c.toNat - 0x30)) * 10 ^ l.length + decVal l < 2 ^ 63 := by
      intro h
      have := Nat.le_mul_of_pos_right (a * 10 + (c.toNat - 0x30)) hpow
      omega
    by_cases h1 : 922337203685477587 < a
    · rw [if_pos (by simpa using h1), if_neg (hbig (by omega))]
    · rw [if_neg (by simpa using h1)]
      have hs := digit_step 0x7fffffffffffffff 922337203685477587 a c l (by omega) (by omega) (by omega) (by omega) hc
      refine hs.trans ?_
      by_cases h2 : a * 10 + (c.toNat - 0x30) < 2 ^ 63
      · rw [if_pos (by omega), parseDigits_ok l _ (fun c hc => hl c (by simp [hc])) h2]
      · rw [if_neg (by omega), if_neg (hbig (by omega))]

theorem parseInteger_nat {l : List Byte} (h : NatText l) : parseInteger l = if decVal l < 2 ^ 63 then some (BitVec.ofInt 64 (decVal l)) else none := by
  obtain ⟨⟨h1, h2⟩, -⟩ := h
  cases l with
  | nil => exact absurd rfl h1
  | cons c l =>
    rw [parseInteger, if_neg (by rintro rfl; have := h2 0x2d#8 (by simp); revert this; decide)]
    have := parseDigits_ok (c :: l) 0 h2 (by omega)
    simp only [Nat.zero_mul, Nat.zero_add] at this
    rw [show (0#64) = BitVec.ofNat 64 0 from rfl, this]
    simp [BitVec.ofInt_natCast]

theorem parseInteger_neg {l : List Byte} (h : NatText l) : parseInteger (0x2d#8 :: l) = if decVal l < 2 ^ 63 then some (BitVec.ofInt 64 (-decVal l)) else none := by
  obtain ⟨⟨h1, h2⟩, -⟩ := h
  rw [parseInteger, if_pos rfl]
  have := parseDigits_ok l 0 h2 (by omega)
  simp only [Nat.zero_mul, Nat.zero_add] at this
  rw [show (0#64) = BitVec.ofNat 64 0 from rfl, this]
  split_ifs
  · simp [BitVec.ofInt_neg, BitVec.ofInt_natCast]
  · rfl

end WG.Yajl
