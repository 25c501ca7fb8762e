import Verif.Compare.Spec
/-! The model of wg_compare computes the specified order. -/
namespace WG
open Std

theorem ordInt_compare_int (x y : Int) : ordInt (compare x y) = if x > y then 1 else if x < y then -1 else 0 := by
  show ordInt (compareOfLessAndEq x y) = _
  unfold compareOfLessAndEq
  by_cases h : x < y
  · rw [if_pos h, if_neg (by omega), if_pos h]; rfl
  · rw [if_neg h]
    by_cases h2 : x = y
    · subst h2; simp [ordInt]
    · rw [if_neg h2, if_pos (by omega)]; rfl

theorem ordInt_then (o p : Ordering) : ordInt (o.then p) = if ordInt o = 0 then ordInt p else ordInt o := by
  cases o <;> rfl

theorem ordInt_eq_zero (o : Ordering) : ordInt o = 0 ↔ o = .eq := by cases o <;> simp [ordInt]

instance specCmp_trans (s : Reader) : ∀ d, TransCmp (specCmp s d)
  | 0 => by unfold specCmp; infer_instance
  | d + 1 => by
    have := specCmp_trans s d
    have h2 : TransCmp (fun a b => List.compareLex (specCmp s d) (fieldsKey s a) (fieldsKey s b)) :=
      { eq_swap := OrientedCmp.eq_swap (cmp := List.compareLex (specCmp s d))
        isLE_trans := TransCmp.isLE_trans (cmp := List.compareLex (specCmp s d)) }
    unfold specCmp; infer_instance

theorem byteInts_inj {a b : List (BitVec 8)} (h : byteInts a = byteInts b) : a = b := by
  unfold byteInts at h
  induction a generalizing b with
  | nil => cases b with
    | nil => rfl
    | cons y b => simp at h
  | cons x a ih => cases b with
    | nil => simp at h
    | cons y b =>
      simp only [List.map_cons, List.cons.injEq] at h
      rw [ih h.2, BitVec.eq_of_toNat_eq (by omega : x.toNat = y.toNat)]

theorem compare_cons (x y : Int) (xs ys : List Int) : compare (x :: xs) (y :: ys) = (compare x y).then (compare xs ys) :=
  List.compareLex_cons_cons

theorem ordInt_compare_single (x y : Int) : ordInt (compare [x] [y]) = if x > y then 1 else if x < y then -1 else 0 := by
  rw [compare_cons, ← ordInt_compare_int]
  have : compare ([] : List Int) [] = .eq := rfl
  rw [this]; cases compare x y <;> rfl

theorem strcmp_range (x y : List (BitVec 8)) : strcmp x y = 1 ∨ strcmp x y = 0 ∨ strcmp x y = -1 := by
  induction x generalizing y with
  | nil => cases y <;> simp [strcmp]
  | cons a x ih =>
    cases y with
    | nil => simp [strcmp]
    | cons b y =>
      simp only [strcmp]
      split
      · simp
      · split
        · simp
        · exact ih y

theorem strcmp_ord (x y : List (BitVec 8)) : strcmp x y = ordInt (compare (byteInts x) (byteInts y)) := by
  induction x generalizing y with
  | nil => cases y <;> rfl
  | cons a x ih =>
    cases y with
    | nil => rfl
    | cons b y =>
      simp only [strcmp, byteInts, List.map_cons]
      rw [compare_cons, ordInt_then, ordInt_compare_int]
      have := ih y
      unfold byteInts at this
      by_cases h1 : a.toNat > b.toNat
      · have h1' : (a.toNat : Int) > b.toNat := by omega
        simp [h1, h1']
      · have h1' : ¬ (a.toNat : Int) > b.toNat := by omega
        by_cases h2 : a.toNat < b.toNat
        · have h2' : (a.toNat : Int) < b.toNat := by omega
          simp [h1, h1', h2, h2']
        · have h2' : ¬ (a.toNat : Int) < b.toNat := by omega
          simp only [h1, h1', h2, h2', if_false, if_true]
          exact this

theorem signRes_ordInt (o : Ordering) : signRes (ordInt o) = ordInt o := by cases o <;> rfl

theorem strcmp_spec (x y : List (BitVec 8)) : signRes (strcmp x y) = ordInt (compare (byteInts x) (byteInts y)) := by
  rw [strcmp_ord, signRes_ordInt]

theorem memcmp_spec (x y : List (BitVec 8)) :
    signRes (if memcmp x y (min x.length y.length) = 0 then (x.length : Int) - y.length
      else memcmp x y (min x.length y.length)) = ordInt (compare (byteInts x) (byteInts y)) := by
  have key : ∀ x y : List (BitVec 8), ∀ n : Int,
      signRes (if memcmp x y (min x.length y.length) = 0 then n + x.length - (n + y.length)
        else memcmp x y (min x.length y.length)) = ordInt (compare (byteInts x) (byteInts y)) := by
    intro x
    induction x with
    | nil =>
      intro y n
      cases y with
      | nil => simp [memcmp]; rfl
      | cons b y =>
        have : compare (byteInts []) (byteInts (b :: y)) = .lt := rfl
        rw [this]
        simp only [List.length_nil, Nat.zero_min, memcmp, if_true, List.length_cons]
        unfold signRes
        rw [if_neg (by omega), if_pos (by omega)]; rfl
    | cons a x ih =>
      intro y n
      cases y with
      | nil =>
        have : compare (byteInts (a :: x)) (byteInts []) = .gt := rfl
        rw [this]
        simp only [List.length_nil, Nat.min_zero, memcmp, if_true, List.length_cons]
        unfold signRes
        rw [if_pos (by omega)]; rfl
      | cons b y =>
        have hm : min (a :: x).length (b :: y).length = min x.length y.length + 1 := by
          simp only [List.length_cons]; omega
        rw [hm]
        simp only [byteInts, List.map_cons]
        rw [compare_cons, ordInt_then, ordInt_compare_int]
        have hmc : memcmp (a :: x) (b :: y) (min x.length y.length + 1) = if a.toNat > b.toNat then 1
          else if a.toNat < b.toNat then -1 else memcmp x y (min x.length y.length) := rfl
        have h3 := ih y (n + 1)
        unfold byteInts at h3
        by_cases h1 : a.toNat > b.toNat
        · have h1' : (a.toNat : Int) > b.toNat := by omega
          rw [if_pos h1] at hmc
          rw [hmc]
          simp [h1', signRes]
        · have h1' : ¬ (a.toNat : Int) > b.toNat := by omega
          rw [if_neg h1] at hmc
          by_cases h2 : a.toNat < b.toNat
          · have h2' : (a.toNat : Int) < b.toNat := by omega
            rw [if_pos h2] at hmc
            rw [hmc]
            simp [h1', h2', signRes]
          · have h2' : ¬ (a.toNat : Int) < b.toNat := by omega
            rw [if_neg h2] at hmc
            rw [hmc]
            simp only [h1', h2', if_false, if_true]
            rw [← h3]
            have e : n + ((a :: x).length : Int) - (n + ((b :: y).length : Int)) = n + 1 + (x.length : Int) - (n + 1 + (y.length : Int)) := by
              simp only [List.length_cons]; omega
            rw [e]
  have := key x y 0
  simpa using this

/-- Prefix first, then the string. -/
theorem compare_ext (ea eb : List (BitVec 8)) (A B : List Int) (ha : 0#8 ∉ ea) (hb : 0#8 ∉ eb) :
    compare (byteInts ea ++ 0 :: A) (byteInts eb ++ 0 :: B) =
      (compare (byteInts ea) (byteInts eb)).then (compare A B) := by
  have pos : ∀ x : BitVec 8, x ≠ 0#8 → (0 : Int) < x.toNat := by
    intro x hx
    have : x.toNat ≠ 0 := fun h => hx (BitVec.eq_of_toNat_eq (by simpa using h))
    omega
  have cmpInt : ∀ x y : Int, x < y → compare x y = .lt ∧ compare y x = .gt := by
    intro x y h
    constructor
    · show compareOfLessAndEq x y = _; unfold compareOfLessAndEq; rw [if_pos h]
    · show compareOfLessAndEq y x = _; unfold compareOfLessAndEq; rw [if_neg (by omega), if_neg (by omega)]
  induction ea generalizing eb with
  | nil =>
    cases eb with
    | nil => simp only [byteInts, List.map_nil, List.nil_append]; rw [compare_cons]; rfl
    | cons y eb =>
      have hy := pos y (fun h => hb (by simp [h]))
      simp only [byteInts, List.map_nil, List.nil_append, List.map_cons, List.cons_append]
      rw [compare_cons, (cmpInt _ _ hy).1]; rfl
  | cons x ea ih =>
    have hx := pos x (fun h => ha (by simp [h]))
    cases eb with
    | nil =>
      simp only [byteInts, List.map_nil, List.nil_append, List.map_cons, List.cons_append]
      rw [compare_cons, (cmpInt _ _ hx).2]; rfl
    | cons y eb =>
      have := ih eb (fun h => ha (by simp [h])) (fun h => hb (by simp [h]))
      simp only [byteInts, List.map_cons, List.cons_append] at this ⊢
      rw [compare_cons, compare_cons, this, Ordering.then_assoc]

theorem cstr_no_zero (s : Seg) (o : Word) : 0#8 ∉ s.cstr o := by
  intro h
  have tw : ∀ l : List (BitVec 8), 0#8 ∉ l.takeWhile (· ≠ 0#8) := by
    intro l
    induction l with
    | nil => simp
    | cons x l ih =>
      rw [List.takeWhile_cons]
      split
      · rename_i hx
        rw [List.mem_cons]
        rintro (h | h)
        · subst h; simp at hx
        · exact ih h
      · simp
  exact tw _ h

theorem decodeUnistr_no_zero (s : Seg) (d : Word) : 0#8 ∉ (decodeUnistr s d).getD [] := by
  unfold decodeUnistr
  split
  · exact cstr_no_zero _ _
  · split
    · exact cstr_no_zero _ _
    · simp

theorem decodeUnistrLang_no_zero (s : Seg) (d : Word) : 0#8 ∉ (decodeUnistrLang s d).getD [] := by
  unfold decodeUnistrLang
  split
  · simp only []
    split
    · simp
    · exact decodeUnistr_no_zero _ _
  · simp

theorem decodeBlob_length (s : Seg) (d : Word) : (decodeBlob s d).length = decodeBlobLen s d := by
  simp [decodeBlob, Seg.bytes]

/-- The string branch. -/
theorem compareStrings_spec (s : Reader) (a b : Word) (t : WType) (ha : s.typ a = some t) (hb : s.typ b = some t)
    (la : 0#8 ∉ (s.lang a).getD []) (lb : 0#8 ∉ (s.lang b).getD [])
    (ba : t = .blob → (s.blob a).length = s.blobLen a) (bb : t = .blob → (s.blob b).length = s.blobLen b)
    (ht : t = .str ∨ t = .xmlliteral ∨ t = .uri ∨ t = .blob ∨ t = .char) :
    compareStrings s t.code a b = ordInt (compare (payload s a) (payload s b)) := by
  have ext : ∀ c : Int, c = 7 ∨ c = 6 → compareStrings s c a b =
      ordInt (compare (byteInts ((s.lang a).getD []) ++ 0 :: byteInts (s.str a))
        (byteInts ((s.lang b).getD []) ++ 0 :: byteInts (s.str b))) := by
    intro c hc
    rw [compare_ext _ _ _ _ la lb, ordInt_then]
    unfold compareStrings
    rw [if_neg (by omega), if_neg (by omega), if_pos hc]
    simp only [strcmp_spec]
    have cs : ∀ x y : List (BitVec 8), ordInt (compare (byteInts x) (byteInts y)) = strcmp x y := fun x y => (strcmp_ord x y).symm
    cases h1 : s.lang a with
    | none =>
      cases h2 : s.lang b with
      | none => simp only [Option.getD_none]; rw [if_pos (by rfl)]
      | some eb =>
        simp only [Option.getD_none, Option.getD_some]
        cases eb with
        | nil => rw [if_neg (by simp), if_pos (by rfl)]
        | cons y eb => rw [if_pos (by simp), if_neg (by rw [cs]; simp [strcmp]), cs]; rfl
    | some ea =>
      cases h2 : s.lang b with
      | none =>
        simp only [Option.getD_none, Option.getD_some]
        cases ea with
        | nil => rw [if_neg (by simp), if_pos (by rfl)]
        | cons y ea => rw [if_pos (by simp), if_neg (by rw [cs]; simp [strcmp]), cs]; rfl
      | some eb =>
        simp only [Option.getD_some]
        rw [cs ea eb]
        rcases strcmp_range ea eb with h | h | h <;> rw [h] <;> simp
  rcases ht with rfl | rfl | rfl | rfl | rfl
  · simp only [payload, ha, hb]
    show compareStrings s 5 a b = _
    unfold compareStrings
    rw [if_pos rfl, strcmp_spec]
  · simp only [payload, ha, hb]
    exact ext 6 (Or.inr rfl)
  · simp only [payload, ha, hb]
    exact ext 7 (Or.inl rfl)
  · simp only [payload, ha, hb]
    rw [← memcmp_spec, ba rfl, bb rfl]
    rfl
  · simp only [payload, ha, hb]
    have one : ∀ c : BitVec 8, byteInts (if c = 0#8 then [] else [c]) = if c = 0#8 then [] else [(c.toNat : Int)] := by
      intro c; split <;> rfl
    show compareStrings s 9 a b = _
    unfold compareStrings
    rw [if_neg (by omega), if_pos rfl, strcmp_spec, one, one]

/-! ## The main lemma -/

theorem gtElseLt_spec (x y : Int) (h : x ≠ y) :
    gtElseLt (decide (x > y)) = if x > y then 1 else if x < y then -1 else 0 := by
  unfold gtElseLt
  by_cases h1 : x > y
  · simp [h1]
  · rw [if_neg (by simpa using h1), if_neg h1, if_pos (by omega)]

/-- The last component of the order: what distinguishes records. -/
def restCmp (s : Reader) : Nat → Word → Word → Ordering
  | 0 => compareOn (addrKey s)
  | d + 1 => compareLex (compareOn (lenKey s)) (fun a b => List.compareLex (specCmp s d) (fieldsKey s a) (fieldsKey s b))

theorem specCmp_eq (s : Reader) (d : Nat) (a b : Word) : specCmp s d a b =
    (compare (typeCode s a) (typeCode s b)).then ((compare (payload s a) (payload s b)).then (restCmp s d a b)) := by
  cases d <;> rfl

theorem restCmp_other (s : Reader) (d : Nat) (a b : Word) (ha : isRec s a = false) (hb : isRec s b = false) :
    restCmp s d a b = .eq := by
  cases d <;> simp [restCmp, compareOn, compareLex, addrKey, lenKey, fieldsKey, ha, hb, List.compareLex_nil_nil]

theorem code_inj {t u : WType} (h : t.code = u.code) : t = u := by
  cases t <;> cases u <;> first | rfl | (simp [WType.code] at h)

theorem compareFields_spec (s : Reader) (cmp : Word → Word → Int) (d : Nat) (V : Word → Prop)
    (ih : ∀ a b, V a → V b → (if a = b then 0 else cmp a b) = ordInt (specCmp s d a b)) :
    ∀ (l1 l2 : List Word), l1.length = l2.length → (∀ x ∈ l1, V x) → (∀ x ∈ l2, V x) →
      compareFields cmp l1 l2 = ordInt (List.compareLex (specCmp s d) l1 l2) := by
  intro l1
  induction l1 with
  | nil => intro l2 hl _ _; cases l2 with
    | nil => rfl
    | cons => simp at hl
  | cons x l1 ih1 =>
    intro l2 hl h1 h2
    cases l2 with
    | nil => simp at hl
    | cons y l2 =>
      have hr := ih1 l2 (by simpa using hl) (fun z hz => h1 z (by simp [hz])) (fun z hz => h2 z (by simp [hz]))
      have hxy := ih x y (h1 x (by simp)) (h2 y (by simp))
      rw [List.compareLex_cons_cons, ordInt_then, ← hxy]
      simp only [compareFields]
      by_cases he : x = y
      · simp [he, hr]
      · rw [if_pos he, if_neg he]
        by_cases hc : cmp x y = 0
        · simp [hc, hr]
        · simp [hc]

/-- `wg_compare` computes the specified order. -/
theorem cmpD_spec {s : Reader} {V : Word → Prop} (hV : Ordered s V) : ∀ (d : Nat) (a b : Word), V a → V b →
    (if a = b then 0 else wgCompare s d a b) = ordInt (specCmp s d a b) := by
  intro d
  induction d with
  | zero | succ d ihd =>
    all_goals
    intro a b hva hvb
    by_cases hab : a = b
    · subst hab
      rw [if_pos rfl, ReflCmp.compare_self (cmp := specCmp s _)]; rfl
    rw [if_neg hab]
    obtain ⟨ta, hta⟩ := hV.typ a hva
    obtain ⟨tb, htb⟩ := hV.typ b hvb
    have hca : typeCode s a = ta.code := by simp [typeCode, hta]
    have hcb : typeCode s b = tb.code := by simp [typeCode, htb]
    rw [specCmp_eq, ordInt_then]
    by_cases hty : ta = tb
    · rw [← hty] at htb hcb
      rw [hca, hcb, ReflCmp.compare_self (α := Int) (cmp := compare), if_pos (by rfl), ordInt_then]
      unfold wgCompare
      simp only [hca, hcb, if_true]
      generalize hc0 : ta.code = c
      have hnonrec : ta ≠ .record → isRec s a = false ∧ isRec s b = false := by
        intro h
        simp [isRec, hta, htb, h]
      have single : ∀ (x y : Int), payload s a = [x] → payload s b = [y] → x ≠ y → ta ≠ .record → ∀ d,
          gtElseLt (decide (x > y)) = if ordInt (compare (payload s a) (payload s b)) = 0 then ordInt (restCmp s d a b)
            else ordInt (compare (payload s a) (payload s b)) := by
        intro x y hx hy hne hnr d
        rw [hx, hy, ordInt_compare_single, gtElseLt_spec x y hne]
        by_cases h1 : x > y
        · simp [h1]
        · have h2 : x < y := by omega
          simp [h1, h2]
      have viaWord : (ta = .fixpoint ∨ ta = .date ∨ ta = .time ∨ ta = .var) →
          payload s a ≠ payload s b := by
        intro ht hp
        exact hab (hV.imm a b ta hva hvb hta htb (Or.inr ht) hp)
      have plain : ta ≠ .record → ∀ d, ordInt (compare (payload s a) (payload s b)) =
          if ordInt (compare (payload s a) (payload s b)) = 0 then ordInt (restCmp s d a b)
            else ordInt (compare (payload s a) (payload s b)) := by
        intro hnr d
        rw [restCmp_other s d a b (hnonrec hnr).1 (hnonrec hnr).2]
        split
        · rename_i h; rw [h]; rfl
        · rfl
      cases ht : ta with
      | null =>
        exact absurd (hV.imm a b ta hva hvb hta htb (Or.inl ht) (by rw [ht] at hta htb; simp only [payload, hta, htb])) hab
      | int =>
        rw [ht] at hta htb
        have hc : c = 3 := by rw [← hc0, ht]; rfl
        rw [if_neg (by omega), if_pos (by omega), if_neg (by omega), if_pos (by omega)]
        rw [← plain (by simp [ht])]
        simp only [payload, hta, htb]
        rw [ordInt_compare_single]
        by_cases he : s.int a = s.int b
        · rw [if_pos he, he]; simp
        · rw [if_neg he, gtElseLt_spec _ _ (fun h => he (BitVec.eq_of_toInt_eq h))]
      | double =>
        rw [ht] at hta htb
        have hc : c = 4 := by rw [← hc0, ht]; rfl
        rw [if_neg (by omega), if_pos (by omega), if_neg (by omega), if_neg (by omega)]
        rw [← plain (by simp [ht])]
        simp only [payload, hta, htb]
        rw [ordInt_compare_single]
        have na := hV.noNaN a hva hta
        have nb := hV.noNaN b hvb htb
        unfold dblEq dblGt
        simp only [na, nb, Bool.not_false, Bool.true_and]
        generalize dblKey (s.dbl a) = x
        generalize dblKey (s.dbl b) = y
        by_cases he : x = y
        · subst he; simp
        · rw [if_neg (by simpa using he), gtElseLt_spec _ _ he]
      | fixpoint =>
        have hne := viaWord (by simp [ht])
        rw [ht] at hta htb
        have hc : c = 10 := by rw [← hc0, ht]; rfl
        rw [if_pos (by omega), if_neg (by omega)]
        refine single _ _ (by simp only [payload, hta]) (by simp only [payload, htb]) ?_ (by simp [ht]) _
        intro h
        simp only [payload, hta, htb, h] at hne
        exact hne rfl
      | date =>
        have hne := viaWord (by simp [ht])
        rw [ht] at hta htb
        have hc : c = 11 := by rw [← hc0, ht]; rfl
        rw [if_pos (by omega), if_pos (by omega), if_pos (by omega)]
        refine single _ _ (by simp only [payload, hta]) (by simp only [payload, htb]) ?_ (by simp [ht]) _
        intro h
        simp only [payload, hta, htb, h] at hne
        exact hne rfl
      | time =>
        have hne := viaWord (by simp [ht])
        rw [ht] at hta htb
        have hc : c = 12 := by rw [← hc0, ht]; rfl
        rw [if_pos (by omega), if_pos (by omega), if_neg (by omega), if_pos (by omega)]
        refine single _ _ (by simp only [payload, hta]) (by simp only [payload, htb]) ?_ (by simp [ht]) _
        intro h
        simp only [payload, hta, htb, h] at hne
        exact hne rfl
      | var =>
        have hne := viaWord (by simp [ht])
        rw [ht] at hta htb
        have hc : c = 14 := by rw [← hc0, ht]; rfl
        rw [if_pos (by omega), if_pos (by omega), if_neg (by omega), if_neg (by omega), if_pos (by omega)]
        refine single _ _ (by simp only [payload, hta]) (by simp only [payload, htb]) ?_ (by simp [ht]) _
        intro h
        simp only [payload, hta, htb, h] at hne
        exact hne rfl
      | anonconst =>
        rw [ht] at hta htb
        have hc : c = 13 := by rw [← hc0, ht]; rfl
        rw [if_pos (by omega), if_pos (by omega), if_neg (by omega), if_neg (by omega), if_neg (by omega)]
        refine single _ _ (by simp only [payload, hta]) (by simp only [payload, htb]) ?_ (by simp [ht]) _
        intro h
        exact hab (BitVec.eq_of_toInt_eq h)
      | str | xmlliteral | uri | blob | char =>
        rw [ht] at hta htb
        have := compareStrings_spec s a b _ hta htb (hV.lang a hva) (hV.lang b hvb) (fun e => hV.blob a hva (by rw [hta, e])) (fun e => hV.blob b hvb (by rw [htb, e])) (by simp)
        rw [ht] at hc0
        have hc : c = 5 ∨ c = 6 ∨ c = 7 ∨ c = 8 ∨ c = 9 := by rw [← hc0]; simp [WType.code]
        rw [hc0] at this
        rw [if_neg (by omega), if_neg (by omega), ← plain (by simp [ht])]
        exact this
      | record =>
        rw [ht] at hta htb
        have ra : isRec s a = true := by simp [isRec, hta]
        have rb : isRec s b = true := by simp [isRec, htb]
        have hp : compare (payload s a) (payload s b) = .eq := by simp only [payload, hta, htb]; rfl
        have hc : c = 2 := by rw [← hc0, ht]; rfl
        rw [if_neg (by omega), if_pos (by omega), if_pos (by omega)]
        have hp0 : ordInt (compare (payload s a) (payload s b)) = 0 := by rw [hp]; rfl
        rw [if_pos hp0]
        simp only [restCmp, compareOn, compareLex, addrKey, lenKey, fieldsKey, ra, rb, if_true]
        first
        | (show gtElseLt (decide (a.toInt > b.toInt)) = _
           rw [ordInt_compare_int, gtElseLt_spec _ _ (fun h => hab (BitVec.eq_of_toInt_eq h))]; done)
        | (show (if s.len a ≠ s.len b then gtElseLt (decide (s.len a > s.len b)) else
              compareFields (wgCompare s d) (s.fields a) (s.fields b)) = _
           rw [ordInt_then]
           by_cases hl : s.len a = s.len b
           · have h0 : compare (s.len a) (s.len b) = .eq := by
               rw [hl]; exact ReflCmp.compare_self (α := Int) (cmp := compare)
             rw [if_neg (by simpa using hl), if_pos ((ordInt_eq_zero _).2 h0)]
             refine compareFields_spec s _ d V ihd _ _ ?_ (hV.closed a hva hta) (hV.closed b hvb htb)
             rw [hV.len a hva hta, hV.len b hvb htb, hl]
           · rw [if_pos hl, gtElseLt_spec _ _ hl, ordInt_compare_int]
             by_cases h1 : s.len a > s.len b
             · simp [h1]
             · have h2 : s.len a < s.len b := by omega
               simp [h1, h2])
    · have hne : ta.code ≠ tb.code := fun h => hty (code_inj h)
      unfold wgCompare
      simp only [hca, hcb]
      rw [if_neg (Ne.symm hne), gtElseLt_spec _ _ hne, ordInt_compare_int]
      by_cases h1 : ta.code > tb.code
      · simp [h1]
      · have h2 : ta.code < tb.code := by omega
        simp [h1, h2]

/-- WG_COMPARE is the specified order at depth 7. -/
theorem cmp_spec {s : Reader} {V : Word → Prop} (hV : Ordered s V) (a b : Word) (ha : V a) (hb : V b) :
    WG_COMPARE s a b = ordInt (specCmp s 7 a b) := cmpD_spec hV 7 a b ha hb

/-- The comparison is reflexive and its sign flips when the arguments are swapped. -/
theorem cmp_antisymm {s : Reader} {V : Word → Prop} (hV : Ordered s V) (a b : Word) (ha : V a) (hb : V b) :
    WG_COMPARE s a a = 0 ∧ WG_COMPARE s a b = - WG_COMPARE s b a ∧
    (WG_COMPARE s a b = -1 ∨ WG_COMPARE s a b = 0 ∨ WG_COMPARE s a b = 1) := by
  rw [cmp_spec hV a b ha hb, cmp_spec hV b a hb ha]
  refine ⟨by simp [WG_COMPARE], ?_, ?_⟩
  · rw [OrientedCmp.eq_swap (cmp := specCmp s 7) (a := a) (b := b)]
    cases specCmp s 7 b a <;> rfl
  · cases specCmp s 7 a b <;> simp [ordInt]

/-- The comparison is transitive. -/
theorem cmp_trans {s : Reader} {V : Word → Prop} (hV : Ordered s V) (a b c : Word) (ha : V a) (hb : V b) (hc : V c)
    (h1 : WG_COMPARE s a b ≤ 0) (h2 : WG_COMPARE s b c ≤ 0) :
    WG_COMPARE s a c ≤ 0 ∧ (WG_COMPARE s a b < 0 ∨ WG_COMPARE s b c < 0 → WG_COMPARE s a c < 0) := by
  rw [cmp_spec hV a b ha hb, cmp_spec hV b c hb hc, cmp_spec hV a c ha hc] at *
  have le : ∀ o : Ordering, ordInt o ≤ 0 ↔ o.isLE = true := by intro o; cases o <;> simp [ordInt]
  have lt : ∀ o : Ordering, ordInt o < 0 ↔ o = .lt := by intro o; cases o <;> simp [ordInt]
  rw [le] at h1 h2
  refine ⟨(le _).2 (TransCmp.isLE_trans h1 h2), ?_⟩
  rw [lt, lt, lt]
  rintro (h | h)
  · exact TransCmp.lt_of_lt_of_isLE h h2
  · exact TransCmp.lt_of_isLE_of_lt h1 h

/-! ## The memory segment as a reader -/

/-- Equal payloads of these types mean the same word. -/
theorem payload_word (s : Seg) (da db : Datum) (ha : da.Valid s.mem) (hb : db.Valid s.mem) (hty : da.type = db.type)
    (ht : da.type = .fixpoint ∨ da.type = .date ∨ da.type = .time ∨ da.type = .var)
    (hp : payload s da.encode = payload s db.encode) : da = db := by
  have ea := C03_type_correct s.mem da ha
  have eb := C03_type_correct s.mem db hb
  simp only [payload, Seg.reader, ea, eb] at hp
  have notlong : ∀ (d : Datum) (off : Word) (t : WType), d.Valid s.mem → d = .longstr off t →
      ¬ (t = .fixpoint ∨ t = .date ∨ t = .time ∨ t = .var) := by
    rintro d off t hv rfl h
    rcases hv.2.1 with h1 | h1 | h1 | h1 | h1 <;> subst h1 <;> simp at h
  have htb := ht
  rw [hty] at htb
  cases da <;> simp only [Datum.type, reduceCtorEq, or_self] at ht
  case longstr off t => exact absurd ht (notlong _ off t ha rfl)
  all_goals cases db <;> simp only [Datum.type, reduceCtorEq, or_self] at hty htb
  case fixpoint.longstr off t => exact absurd htb (notlong _ off t hb rfl)
  case date.longstr off t => exact absurd htb (notlong _ off t hb rfl)
  case time.longstr off t => exact absurd htb (notlong _ off t hb rfl)
  case var.longstr off t => exact absurd htb (notlong _ off t hb rfl)
  case fixpoint.fixpoint i j =>
    simp only [Datum.type] at hp
    have h1 := (C02_fixpoint_roundtrip i).2 ((C02_fixpoint_roundtrip i).1.2 ha)
    have h2 := (C02_fixpoint_roundtrip j).2 ((C02_fixpoint_roundtrip j).1.2 hb)
    simp only [Datum.encode] at hp
    cases h3 : decodeFixpoint (encodeFixpoint i) with
    | none => rw [h3] at h1; cases h1
    | some x =>
      cases h4 : decodeFixpoint (encodeFixpoint j) with
      | none => rw [h4] at h2; cases h2
      | some y =>
        rw [h3] at h1 hp; rw [h4] at h2 hp
        simp only [Option.map_some, Option.some.injEq, Option.getD_some, List.cons.injEq, and_true] at h1 h2 hp
        have : i = j := BitVec.eq_of_toInt_eq (by omega)
        rw [this]
  case date.date i j =>
    simp only [Datum.type] at hp
    have h1 := (C02_date_roundtrip i).2 ((C02_date_roundtrip i).1.2 ha)
    have h2 := (C02_date_roundtrip j).2 ((C02_date_roundtrip j).1.2 hb)
    simp only [Datum.encode, h1, h2, Option.getD_some, List.cons.injEq, and_true] at hp
    rw [BitVec.eq_of_toInt_eq hp]
  case time.time i j =>
    simp only [Datum.type] at hp
    have h1 := (C02_time_roundtrip i).2 ((C02_time_roundtrip i).1.2 ha)
    have h2 := (C02_time_roundtrip j).2 ((C02_time_roundtrip j).1.2 hb)
    simp only [Datum.encode, h1, h2, Option.getD_some, List.cons.injEq, and_true] at hp
    rw [BitVec.eq_of_toInt_eq hp]
  case var.var i j =>
    simp only [Datum.type] at hp
    have h1 := (C02_var_roundtrip i).2 ((C02_var_roundtrip i).1.2 ha)
    have h2 := (C02_var_roundtrip j).2 ((C02_var_roundtrip j).1.2 hb)
    simp only [Datum.encode, h1, h2, Option.getD_some, List.cons.injEq, and_true] at hp
    rw [BitVec.eq_of_toInt_eq hp]

theorem recFields_length (s : Seg) (r : Word) : (recFields s r).length = (recordLen s r).toNat := by
  simp [recFields]

/-- A value set of a memory segment can be ordered. -/
theorem ValueSet.ordered {s : Seg} {V : Word → Prop} (hV : ValueSet s V) : Ordered s V where
  typ w hw := by
    obtain ⟨d, hd, rfl⟩ := hV.valid w hw
    exact ⟨_, C03_type_correct s.mem d hd⟩
  imm := by
    intro a b t hva hvb hta htb ht hp
    obtain ⟨da, va, rfl⟩ := hV.valid a hva
    obtain ⟨db, vb, rfl⟩ := hV.valid b hvb
    have ea := Option.some.inj ((C03_type_correct s.mem da va).symm.trans hta)
    have eb := Option.some.inj ((C03_type_correct s.mem db vb).symm.trans htb)
    rcases ht with ht | ht
    · have : ∀ d : Datum, d.Valid s.mem → d.type = .null → d = .null := by
        intro d hd h
        cases d <;> simp [Datum.type] at h
        · rfl
        · rename_i off t
          subst h
          rcases hd.2.1 with h1 | h1 | h1 | h1 | h1 <;> cases h1
      rw [this da va (ea.trans ht), this db vb (eb.trans ht)]
    · rw [payload_word s da db va vb (ea.trans eb.symm) (by rw [ea]; exact ht) hp]
  noNaN w hw _ := by
    show isNaN ((decodeDouble s.mem w).getD 0#64) = false
    cases hd : decodeDouble s.mem w with
    | none => decide
    | some x => exact hV.noNaN w hw x hd
  lang w _ := decodeUnistrLang_no_zero s w
  blob w _ _ := decodeBlob_length s w
  len w _ _ := recFields_length s w
  closed w hw ht := hV.closed w hw (by simp [isRec, ht])

end WG
