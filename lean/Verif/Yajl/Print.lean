import Verif.Yajl.Accept
/-! # The generator prints texts of the grammar -/
namespace WG.Yajl
open WG.Json (Ev J JArr JObj Gen digits fmtInt)
open WG.Recs (Byte)

variable {strtod : List Byte → Option (BitVec 64)} {fmt : BitVec 64 → List Byte} {f : BitVec 64 → BitVec 64}

/-! ## Strings -/

theorem esc_table : ∀ c : Byte, c.toNat ≤ 0x7f → (escByte c = [c] ∧ 0x20 ≤ c.toNat ∧ c ≠ 0x22#8 ∧ c ≠ 0x5c#8) ∨ (∃ p ∈ shortEsc, p.2 = c ∧ escByte c = [0x5c#8, p.1]) ∨
    (c.toNat < 0x20 ∧ escByte c = [0x5c#8, 0x75#8, 0x30#8, 0x30#8, (escByte c).getD 4 0#8, (escByte c).getD 5 0#8] ∧ isVHC ((escByte c).getD 4 0#8) = true ∧
      isVHC ((escByte c).getD 5 0#8) = true ∧ hexVal ((escByte c).getD 4 0#8) = some (c.toNat / 16) ∧ hexVal ((escByte c).getD 5 0#8) = some (c.toNat % 16)) := by decide +kernel

theorem esc_high : ∀ c : Byte, 0x80 ≤ c.toNat → escByte c = [c] ∧ c ≠ 0x22#8 ∧ c ≠ 0x5c#8 := by decide +kernel

theorem hex_val {c : Byte} {n : Nat} (h : isVHC c = true) (hv : hexVal c = some n) : Hex c n := by
  obtain ⟨m, hm⟩ := hex_of h
  have := hexVal_of hm
  rw [hv] at this
  cases this
  exact hm

theorem encode_high {u : List Byte} (h : ∀ c ∈ u, 0x80 ≤ c.toNat) : encode u = u ∧ ∀ c ∈ u, 0x20 ≤ c.toNat ∧ c ≠ 0x22#8 ∧ c ≠ 0x5c#8 := by
  constructor
  · induction u with
    | nil => rfl
    | cons c u ih =>
      rw [encode, List.flatMap_cons, (esc_high c (h c (by simp))).1]
      have := ih fun d hd => h d (by simp [hd])
      rw [encode] at this
      rw [this]; rfl
  · intro c hc
    have := h c hc
    exact ⟨by omega, (esc_high c this).2⟩

theorem encode_char {u raw s : List Byte} (hu : Utf8 u) (hb : Body raw s) : Body (encode u ++ raw) (u ++ s) := by
  have high : (∀ c ∈ u, 0x80 ≤ c.toNat) → Body (encode u ++ raw) (u ++ s) := by
    intro h
    obtain ⟨e1, e2⟩ := encode_high h
    rw [e1]
    exact .char hu e2 hb
  cases hu with
  | @one c hc =>
    have e : encode [c] = escByte c := by simp [encode]
    rw [e]
    rcases esc_table c hc.2 with ⟨h1, h2⟩ | ⟨⟨d, v⟩, h1, rfl, h2⟩ | ⟨h1, h2, h3, h4, h5, h6⟩
    · rw [h1]; exact .char (.one hc) (by simpa using h2) hb
    · rw [h2]; exact .esc h1 hb
    · rw [h2]
      have z : Hex 0x30#8 0 := Hex.digit (c := 0x30#8) (by unfold Between; decide)
      have hh := Hex4.mk z z (hex_val h3 h5) (hex_val h4 h6)
      have hn : ((0 * 16 + 0) * 16 + c.toNat / 16) * 16 + c.toNat % 16 = c.toNat := by omega
      rw [hn] at hh
      have := Body.hex hh (by omega) hb
      rw [utf8, if_pos (by omega), BitVec.ofNat_toNat, BitVec.setWidth_eq] at this
      simpa using this
  | two h1 h2 => exact high (by simpa using ⟨by have := h1.1; omega, h2.1⟩)
  | three h1 h2 h3 => exact high (by simpa using ⟨by have := h1.1; omega, h2.1, h3.1⟩)
  | four h1 h2 h3 h4 => exact high (by simpa using ⟨by have := h1.1; omega, h2.1, h3.1, h4.1⟩)

theorem encode_ok {s : List Byte} (h : Utf8Text s) : Body (encode s) s := by
  induction h with
  | nil => exact .nil
  | @cons u s hu _ ih =>
    rw [show encode (u ++ s) = encode u ++ encode s by simp [encode]]
    exact encode_char hu ih

/-! ## Integers -/

theorem decVal_snoc (l : List Byte) (c : Byte) : decVal (l ++ [c]) = 10 * decVal l + (c.toNat - 0x30) := by
  simp [decVal]

theorem digit_ok {n : Nat} (h : n < 10) : Between 0x30 0x39 (BitVec.ofNat 8 (48 + n)) ∧ (BitVec.ofNat 8 (48 + n)).toNat - 0x30 = n ∧ (BitVec.ofNat 8 (48 + n) = 0x30#8 → n = 0) := by
  have e : (BitVec.ofNat 8 (48 + n)).toNat = 48 + n := by rw [BitVec.toNat_ofNat]; omega
  refine ⟨⟨by rw [e]; omega, by rw [e]; omega⟩, by rw [e]; omega, fun h0 => ?_⟩
  rw [h0] at e
  have : (0x30#8).toNat = 48 := by decide
  omega

theorem digits_ok (n : Nat) : decVal (digits n) = n ∧ Digits (digits n) ∧ ((digits n).head? = some 0x30#8 → n = 0) := by
  induction n using Nat.strongRecOn with
  | ind n ih =>
    rw [digits]
    split_ifs with h
    · obtain ⟨h1, h2, h3⟩ := digit_ok h
      refine ⟨by simp only [decVal, List.foldl_cons, List.foldl_nil, h2]; omega, ⟨by simp, by simpa using h1⟩, fun e => h3 (by simpa using e)⟩
    · obtain ⟨h1, h2, h3⟩ := digit_ok (Nat.mod_lt n (by omega : 10 > 0))
      obtain ⟨i1, i2, i3⟩ := ih (n / 10) (by omega)
      refine ⟨by rw [decVal_snoc, i1, h2]; omega, ⟨by simp, ?_⟩, ?_⟩
      · intro c hc
        rw [List.mem_append] at hc
        rcases hc with hc | hc
        · exact i2.2 c hc
        · rw [List.mem_singleton.1 hc]; exact h1
      · intro e
        rw [List.head?_append_of_ne_nil _ i2.1] at e
        have := i3 e
        omega

theorem digits_nat (n : Nat) : NatText (digits n) := by
  obtain ⟨_, h2, h3⟩ := digits_ok n
  refine ⟨h2, fun e => ?_⟩
  rw [h3 e, digits, if_pos (by omega)]

theorem fmtInt_ok {v : BitVec 64} (h : v.toInt ≠ -2 ^ 63) : Val strtod (fmtInt v.toInt) (.int v) := by
  have b1 := BitVec.toInt_lt (x := v)
  have b2 := BitVec.le_toInt v
  have hd := (digits_ok v.toInt.natAbs).1
  unfold fmtInt
  split_ifs with hn
  · have := Val.neg (strtod := strtod) (digits_nat v.toInt.natAbs) (by rw [hd]; omega)
    rw [hd, show (-(v.toInt.natAbs : Int)) = v.toInt by omega, BitVec.ofInt_toInt] at this
    exact this
  · have := Val.nat (strtod := strtod) (digits_nat v.toInt.natAbs) (by rw [hd]; omega)
    rw [hd, show ((v.toInt.natAbs : Nat) : Int) = v.toInt by omega, BitVec.ofInt_toInt] at this
    exact this

/-! ## Values -/

theorem gap_spaces (n : Nat) : Gap (List.replicate n 0x20#8) := by
  induction n with
  | zero => exact .nil
  | succ n ih => rw [List.replicate_succ]; exact .ws (by simp) ih

theorem gap_ws (s : GS) (n : Nat) : Gap (insertWs s n) := by
  unfold insertWs
  split_ifs
  exacts [.nil, gap_spaces _]

theorem gap_nl {g : List Byte} (h : Gap g) : Gap (0x0a#8 :: g) := .ws (by simp) h

theorem items_before {g t : List Byte} {a : JArr} (hg : Gap g) (h : Items strtod t a) : Items strtod (g ++ t) a := by
  cases h with
  | one h1 h2 h3 => simpa using Items.one (hg.append h1) h2 h3
  | more h1 h2 h3 h4 => simpa using Items.more (hg.append h1) h2 h3 h4

theorem items_after {g : List Byte} (hg : Gap g) : ∀ {a : JArr} {t : List Byte}, Items strtod t a → Items strtod (t ++ g) a
  | .nil, t, h => by cases h
  | .cons v a, t, h => by
    cases h with
    | one h1 h2 h3 => simpa using Items.one h1 h2 (h3.append hg)
    | more h1 h2 h3 h4 => simpa using Items.more h1 h2 h3 (items_after hg h4)

theorem members_before {g t : List Byte} {m : JObj} (hg : Gap g) (h : Members strtod t m) : Members strtod (g ++ t) m := by
  cases h with
  | one h1 h2 h3 h4 h5 h6 => simpa using Members.one (hg.append h1) h2 h3 h4 h5 h6
  | more h1 h2 h3 h4 h5 h6 h7 => simpa using Members.more (hg.append h1) h2 h3 h4 h5 h6 h7

theorem members_after {g : List Byte} (hg : Gap g) : ∀ {m : JObj} {t : List Byte}, Members strtod t m → Members strtod (t ++ g) m
  | .nil, t, h => by cases h
  | .cons k v m, t, h => by
    cases h with
    | one h1 h2 h3 h4 h5 h6 => simpa using Members.one h1 h2 h3 h4 h5 (h6.append hg)
    | more h1 h2 h3 h4 h5 h6 h7 => simpa using Members.more h1 h2 h3 h4 h5 h6 (members_after hg h7)

theorem genAll_append (a b : List Gen) (st : List GS) : genAll (a ++ b) st = match genAll a st with
    | none => none
    | some (st', t) => (genAll b st').map fun y => (y.1, t ++ y.2) := by
  induction a generalizing st with
  | nil => simp only [List.nil_append, genAll]; cases genAll b st <;> simp
  | cons g a ih =>
    rw [List.cons_append, genAll, genAll]
    cases genStep st g with
    | none => rfl
    | some y =>
      obtain ⟨st', t⟩ := y
      dsimp only
      rw [ih]
      cases genAll a st' with
      | none => rfl
      | some z =>
        obtain ⟨st'', t'⟩ := z
        dsimp only [Option.map_some]
        cases genAll b st'' <;> simp

theorem genAll_cons (g : Gen) (l : List Gen) (st : List GS) : genAll (g :: l) st = match genStep st g with
    | none => none
    | some (st', t) => (genAll l st').map fun y => (y.1, t ++ y.2) := by rw [genAll]; rfl

/-- The generator expects a value. -/
def GWants (s : GS) : Prop := s = .start ∨ s = .mapVal ∨ s = .arrStart ∨ s = .inArr

theorem GWants.ne {s : GS} (h : GWants s) : s ≠ .complete ∧ ¬ (s = .mapKey ∨ s = .mapStart) := by
  rcases h with rfl | rfl | rfl | rfl <;> decide

mutual
theorem gen_val : ∀ (j : J), Printable strtod fmt f j → ∀ {s : GS} (rest : List GS), GWants s → rest.length + j.depth < 128 → ∃ t, Val strtod t (withDbl f j) ∧
    genAll (j.gens fmt) (s :: rest) = some (appended s :: rest, insertSep s ++ insertWs s rest.length ++ t ++ finalNewline (appended s))
  | .null, hp, s, rest, hs, hd => hp.elim
  | .bool b, hp, s, rest, hs, hd => hp.elim
  | .int v, hp, s, rest, hs, hd => ⟨_, fmtInt_ok hp, by simp [J.gens, genAll, genStep, hs.ne]⟩
  | .dbl v, hp, s, rest, hs, hd => ⟨_, .dbl hp.1 hp.2, by simp [J.gens, genAll, genStep, hs.ne]⟩
  | .str x, hp, s, rest, hs, hd => ⟨_, .str (encode_ok hp), by simp [J.gens, genAll, genStep, hs.ne]⟩
  | .arr a, hp, s, rest, hs, hd => by
    have ho : genStep (s :: rest) .arrOpen = some (.arrStart :: s :: rest, insertSep s ++ insertWs s rest.length ++ [0x5b#8, 0x0a#8]) := by
      rw [J.depth] at hd
      rw [genStep, if_neg hs.ne.1, if_neg hs.ne.2, if_neg (by omega)]
    have hcl : ∀ z, z ≠ GS.complete → genAll [.arrClose] (z :: s :: rest) =
        some (appended s :: rest, 0x0a#8 :: insertWs (appended s) rest.length ++ [0x5d#8] ++ finalNewline (appended s)) := by
      intro z hz
      simp [genAll, genStep, hz]
    rw [J.gens, List.cons_append, genAll_cons, ho]
    dsimp only
    cases a with
    | nil =>
      refine ⟨0x5b#8 :: (0x0a#8 :: 0x0a#8 :: insertWs (appended s) rest.length) ++ [0x5d#8], .arr0 (gap_nl (gap_nl (gap_ws _ _))), ?_⟩
      rw [JArr.gens, List.nil_append, hcl _ (by decide)]
      simp
    | cons v a =>
      obtain ⟨u, h1, h2⟩ := gen_items (.cons v a) hp (s := .arrStart) (s :: rest) (Or.inl rfl) (by rw [J.depth] at hd; rw [List.length_cons]; omega) (by simp)
      refine ⟨0x5b#8 :: (0x0a#8 :: u ++ 0x0a#8 :: insertWs (appended s) rest.length) ++ [0x5d#8],
        .arr (items_after (gap_nl (gap_ws _ _)) (items_before (g := [0x0a#8]) (gap_nl .nil) h1)), ?_⟩
      rw [genAll_append, h2]
      dsimp only
      rw [hcl _ (by decide)]
      simp [insertSep]
  | .obj m, hp, s, rest, hs, hd => by
    have ho : genStep (s :: rest) .mapOpen = some (.mapStart :: s :: rest, insertSep s ++ insertWs s rest.length ++ [0x7b#8, 0x0a#8]) := by
      rw [J.depth] at hd
      rw [genStep, if_neg hs.ne.1, if_neg hs.ne.2, if_neg (by omega)]
    have hcl : ∀ z, z ≠ GS.complete → genAll [.mapClose] (z :: s :: rest) =
        some (appended s :: rest, 0x0a#8 :: insertWs (appended s) rest.length ++ [0x7d#8] ++ finalNewline (appended s)) := by
      intro z hz
      simp [genAll, genStep, hz]
    rw [J.gens, List.cons_append, genAll_cons, ho]
    dsimp only
    cases m with
    | nil =>
      refine ⟨0x7b#8 :: (0x0a#8 :: 0x0a#8 :: insertWs (appended s) rest.length) ++ [0x7d#8], .obj0 (gap_nl (gap_nl (gap_ws _ _))), ?_⟩
      rw [JObj.gens, List.nil_append, hcl _ (by decide)]
      simp
    | cons k v m =>
      obtain ⟨u, h1, h2⟩ := gen_members (.cons k v m) hp (s := .mapStart) (s :: rest) (Or.inl rfl) (by rw [J.depth] at hd; rw [List.length_cons]; omega) (by simp)
      refine ⟨0x7b#8 :: (0x0a#8 :: u ++ 0x0a#8 :: insertWs (appended s) rest.length) ++ [0x7d#8],
        .obj (members_after (gap_nl (gap_ws _ _)) (members_before (g := [0x0a#8]) (gap_nl .nil) h1)), ?_⟩
      rw [genAll_append, h2]
      dsimp only
      rw [hcl _ (by decide)]
      simp [insertSep]
theorem gen_items : ∀ (a : JArr), PrintableArr strtod fmt f a → ∀ {s : GS} (rest : List GS), s = .arrStart ∨ s = .inArr → rest.length + a.depth < 128 → a ≠ .nil →
    ∃ u, Items strtod u (withDblArr f a) ∧ genAll (a.gens fmt) (s :: rest) = some (.inArr :: rest, insertSep s ++ u)
  | .nil, hp, s, rest, hs, hd, hn => absurd rfl hn
  | .cons v a, hp, s, rest, hs, hd, hn => by
    rw [JArr.depth] at hd
    have hw : GWants s := by rcases hs with rfl | rfl; exacts [Or.inr (Or.inr (Or.inl rfl)), Or.inr (Or.inr (Or.inr rfl))]
    have hap : appended s = .inArr := by rcases hs with rfl | rfl <;> rfl
    obtain ⟨t, h1, h2⟩ := gen_val v hp.1 rest hw (by omega)
    rw [hap] at h2
    cases a with
    | nil =>
      refine ⟨insertWs s rest.length ++ t ++ [], .one (gap_ws _ _) h1 .nil, ?_⟩
      rw [JArr.gens, JArr.gens, List.append_nil, h2]
      simp [finalNewline]
    | cons v' a =>
      obtain ⟨u, h3, h4⟩ := gen_items (.cons v' a) hp.2 (s := .inArr) rest (Or.inr rfl) (by omega) (by simp)
      refine ⟨insertWs s rest.length ++ t ++ [] ++ 0x2c#8 :: ([0x0a#8] ++ u), .more (gap_ws _ _) h1 .nil (items_before (gap_nl .nil) h3), ?_⟩
      rw [JArr.gens, genAll_append, h2]
      dsimp only
      rw [h4]
      simp [finalNewline, insertSep]
theorem gen_members : ∀ (m : JObj), PrintableObj strtod fmt f m → ∀ {s : GS} (rest : List GS), s = .mapStart ∨ s = .mapKey → rest.length + m.depth < 128 → m ≠ .nil →
    ∃ u, Members strtod u (withDblObj f m) ∧ genAll (m.gens fmt) (s :: rest) = some (.mapKey :: rest, insertSep s ++ u)
  | .nil, hp, s, rest, hs, hd, hn => absurd rfl hn
  | .cons k v m, hp, s, rest, hs, hd, hn => by
    rw [JObj.depth] at hd
    have hk : genStep (s :: rest) (.str k) = some (.mapVal :: rest, insertSep s ++ insertWs s rest.length ++ 0x22#8 :: encode k ++ [0x22#8]) := by
      rcases hs with rfl | rfl <;> simp [genStep, appended, finalNewline]
    obtain ⟨t, h1, h2⟩ := gen_val v hp.2.1 (s := .mapVal) rest (Or.inr (Or.inl rfl)) (by omega)
    rw [show appended .mapVal = .mapKey from rfl] at h2
    rw [JObj.gens, List.cons_append, genAll_cons, hk]
    dsimp only
    have sp : Gap [0x20#8] := .ws (by simp) .nil
    cases m with
    | nil =>
      refine ⟨insertWs s rest.length ++ 0x22#8 :: encode k ++ 0x22#8 :: [] ++ 0x3a#8 :: [0x20#8] ++ t ++ [], .one (gap_ws _ _) (encode_ok hp.1) .nil sp h1 .nil, ?_⟩
      rw [JObj.gens, List.append_nil, h2]
      simp [finalNewline, insertSep, insertWs]
    | cons k' v' m =>
      obtain ⟨u, h3, h4⟩ := gen_members (.cons k' v' m) hp.2.2 (s := .mapKey) rest (Or.inr rfl) (by omega) (by simp)
      refine ⟨insertWs s rest.length ++ 0x22#8 :: encode k ++ 0x22#8 :: [] ++ 0x3a#8 :: [0x20#8] ++ t ++ [] ++ 0x2c#8 :: ([0x0a#8] ++ u),
        .more (gap_ws _ _) (encode_ok hp.1) .nil sp h1 .nil (members_before (gap_nl .nil) h3), ?_⟩
      rw [genAll_append, h2]
      dsimp only
      rw [h4]
      simp [finalNewline, insertSep, insertWs]
end

/-- What is printed is a text of the grammar. -/
theorem gen_text (j : J) (hp : Printable strtod fmt f j) (hd : j.depth < 128) : ∃ txt, genAll (j.gens fmt) [.start] = some ([.complete], txt) ∧ Text strtod txt (withDbl f j) := by
  obtain ⟨t, h1, h2⟩ := gen_val j hp (s := .start) [] (Or.inl rfl) (by simpa using hd)
  refine ⟨t ++ [0x0a#8], by rw [h2]; simp [appended, finalNewline, insertSep, insertWs], [], t, [0x0a#8], [], by simp, .nil, h1, gap_nl .nil, Or.inl rfl⟩

end WG.Yajl
