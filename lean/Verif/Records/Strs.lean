import Verif.Records.Back
import Verif.Encoding.Lemmas
import Verif.Encoding.Props
import Mathlib.Tactic.SplitIfs
/-! # Stored values: kinds, holders, and the invariant of the string area -/
namespace WG.Recs

/-! ## Bits -/

theorem and_or_self (x m : Word) : (x &&& ~~~m) ||| (x &&& m) = x := by
  apply BitVec.eq_of_getLsbD_eq
  intro i hi
  simp only [BitVec.getLsbD_and, BitVec.getLsbD_or, BitVec.getLsbD_not, hi, decide_true, Bool.true_and]
  cases x.getLsbD i <;> cases m.getLsbD i <;> rfl

theorem lstr_enc_dec {w : Word} (hw : isLongstr w = true) : encodeLongstr (decodeLongstr w) = w := by
  have h : w &&& 7#64 = 4#64 := by simpa [isLongstr] using hw
  rw [encodeLongstr, decodeLongstr]; conv_rhs => rw [← and_or_self w 7#64, h]
theorem sstr_enc_dec {w : Word} (hw : isShortstr w = true) : encodeShortstr (decodeShortstr w) = w := by
  have h : w &&& 7#64 = 6#64 := by simpa [isShortstr] using hw
  rw [encodeShortstr, decodeShortstr]; conv_rhs => rw [← and_or_self w 7#64, h]
theorem dbl_enc_dec {w : Word} (hw : isFulldouble w = true) : encodeFulldouble (decodeFulldouble w) = w := by
  have h : w &&& 7#64 = 2#64 := by simpa [isFulldouble] using hw
  rw [encodeFulldouble, decodeFulldouble]; conv_rhs => rw [← and_or_self w 7#64, h]
theorem int_enc_dec {w : Word} (hw : isFullint w = true) : encodeFullintOffset (decodeFullintOffset w) = w := by
  have h : w &&& 3#64 = 1#64 := by simpa [isFullint] using hw
  rw [encodeFullintOffset, decodeFullintOffset]; conv_rhs => rw [← and_or_self w 3#64, h]

/-- What a word refers to. -/
inductive Kind | imm | rcd | lstr | sstr | dbl | int
  deriving DecidableEq

def kind (w : Word) : Kind :=
  if isPtr w then
    if isDatarec w then .rcd else if isLongstr w then .lstr else if isShortstr w then .sstr else if isFulldouble w then .dbl
    else .int
  else .imm

theorem and3 (w : Word) : w &&& 3#64 = (w &&& 7#64) &&& 3#64 := by rw [BitVec.and_assoc]; rfl

theorem low3 (w : Word) : w &&& 7#64 = 0#64 ∨ w &&& 7#64 = 1#64 ∨ w &&& 7#64 = 2#64 ∨ w &&& 7#64 = 3#64 ∨
    w &&& 7#64 = 4#64 ∨ w &&& 7#64 = 5#64 ∨ w &&& 7#64 = 6#64 ∨ w &&& 7#64 = 7#64 := by
  have h : (w &&& 7#64).toNat < 8 := by
    rw [BitVec.toNat_and]
    exact Nat.lt_of_le_of_lt Nat.and_le_right (by decide)
  have e : ∀ k, k < 8 → ((w &&& 7#64).toNat = k ↔ w &&& 7#64 = BitVec.ofNat 64 k) := by
    intro k hk
    rw [← BitVec.toNat_inj, BitVec.toNat_ofNat, Nat.mod_eq_of_lt (by omega)]
  have : (w &&& 7#64).toNat = 0 ∨ (w &&& 7#64).toNat = 1 ∨ (w &&& 7#64).toNat = 2 ∨ (w &&& 7#64).toNat = 3 ∨
      (w &&& 7#64).toNat = 4 ∨ (w &&& 7#64).toNat = 5 ∨ (w &&& 7#64).toNat = 6 ∨ (w &&& 7#64).toNat = 7 := by omega
  rw [e 0 (by omega), e 1 (by omega), e 2 (by omega), e 3 (by omega), e 4 (by omega), e 5 (by omega), e 6 (by omega), e 7 (by omega)] at this
  exact this

/-- All tests on a word are decided by its low three bits and whether it is 0. -/
theorem kind_cases (w : Word) :
    (kind w = .imm ∧ isPtr w = false ∧ isLongstr w = false ∧ isShortstr w = false ∧ isFulldouble w = false ∧ isFullint w = false ∧
      isRecVal w = false) ∨
    (kind w = .rcd ∧ isPtr w = true ∧ isDatarec w = true ∧ isRecVal w = true ∧ isLongstr w = false ∧ isShortstr w = false) ∨
    (kind w = .lstr ∧ isPtr w = true ∧ isDatarec w = false ∧ isRecVal w = false ∧ isLongstr w = true ∧ isShortstr w = false) ∨
    (kind w = .sstr ∧ isPtr w = true ∧ isDatarec w = false ∧ isRecVal w = false ∧ isLongstr w = false ∧ isShortstr w = true) ∨
    (kind w = .dbl ∧ isPtr w = true ∧ isDatarec w = false ∧ isRecVal w = false ∧ isLongstr w = false ∧ isShortstr w = false ∧
      isFulldouble w = true) ∨
    (kind w = .int ∧ isPtr w = true ∧ isDatarec w = false ∧ isRecVal w = false ∧ isLongstr w = false ∧ isShortstr w = false ∧
      isFulldouble w = false ∧ isFullint w = true) := by
  have h3 := and3 w
  by_cases h0 : w = 0#64
  · subst h0; left; decide
  rcases low3 w with h | h | h | h | h | h | h | h <;> rw [h] at h3 <;>
    simp [kind, isPtr, isDatarec, isLongstr, isShortstr, isFulldouble, isFullint, isRecVal, h, h3, h0]

theorem isPtr_lstr {w : Word} (h : isLongstr w = true) : kind w = .lstr := by
  rcases kind_cases w with k | k | k | k | k | k <;> simp_all

theorem lstr_dec_enc {o : Word} (h : Aligned o) : decodeLongstr (encodeLongstr o) = o := aligned_or_andnot o 4#64 h (by decide)
theorem lstr_is {o : Word} (h : Aligned o) : isLongstr (encodeLongstr o) = true := by
  simp only [isLongstr, encodeLongstr, aligned_or_and o 4#64 7#64 h (by decide)]; decide
theorem sstr_dec_enc {o : Word} (h : Aligned o) : decodeShortstr (encodeShortstr o) = o := aligned_or_andnot o 6#64 h (by decide)
theorem sstr_is {o : Word} (h : Aligned o) : isShortstr (encodeShortstr o) = true := by
  simp only [isShortstr, encodeShortstr, aligned_or_and o 6#64 7#64 h (by decide)]; decide
theorem dbl_dec_enc {o : Word} (h : Aligned o) : decodeFulldouble (encodeFulldouble o) = o := aligned_or_andnot o 2#64 h (by decide)
theorem dbl_is {o : Word} (h : Aligned o) : isFulldouble (encodeFulldouble o) = true := by
  simp only [isFulldouble, encodeFulldouble, aligned_or_and o 2#64 7#64 h (by decide)]; decide
theorem int_dec_enc {o : Word} (h : Aligned o) : decodeFullintOffset (encodeFullintOffset o) = o := aligned_or_andnot3 o h
theorem int_is {o : Word} (h : Aligned o) : isFullint (encodeFullintOffset o) = true := by
  simp only [isFullint, encodeFullintOffset, aligned_or_and o 1#64 3#64 h (by decide)]; decide

theorem typeOfCode_ne (b : Word) : typeOfCode b ≠ some .record := by
  unfold typeOfCode; split_ifs <;> simp

/-- `wg_get_encoded_type` reports a record exactly on the words `isRecVal` accepts. -/
theorem isRecVal_type (m : Mem) (w : Word) : isRecVal w = true ↔ getEncodedType m w = some .record := by
  have h3 := and3 w
  by_cases h0 : w = 0#64
  · subst h0; simp [isRecVal, getEncodedType]
  have hd : isRecVal w = true ↔ w &&& 7#64 = 0#64 := by simp [isRecVal, isDatarec, h0]
  rw [hd, getEncodedType, if_neg h0]
  by_cases h4 : w &&& 3#64 = 3#64
  · rw [if_pos h4]
    have : w &&& 7#64 ≠ 0#64 := by intro h; rw [h] at h3; rw [h3] at h4; exact absurd h4 (by decide)
    simp only [this, false_iff]
    split_ifs <;> simp
  · rw [if_neg h4]
    dsimp only
    have := typeOfCode_ne (dbfetch m (decodeLongstr w + 8#64) &&& 0xff#64)
    split_ifs <;> simp_all

/-! ## Holders -/

/-- Places that hold an encoded value: fields of records, temporary variables, and the extra string word of long strings. -/
inductive Pos
  | fld (r : Word) (i : Nat)
  | tmp (k : Nat)
  | ext (s : Word)
  deriving DecidableEq

def Held (h : Heap) (F : Pos → Option Word) (p : Pos) (w : Word) : Prop :=
  match p with
  | .ext s => ∃ x, h.lstrs s = some x ∧ x.extra = w
  | .fld r i => F (.fld r i) = some w
  | .tmp k => F (.tmp k) = some w

def isExt : Pos → Bool
  | .ext _ => true
  | _ => false

theorem held_of_not_ext {h : Heap} {F} {p : Pos} (hp : isExt p = false) (w : Word) : Held h F p w ↔ F p = some w := by
  cases p <;> simp_all [Held, isExt]

/-- `n` places satisfy `P`. -/
def IsCount (P : Pos → Prop) (n : Int) : Prop := ∃ L : List Pos, L.Nodup ∧ (∀ p, p ∈ L ↔ P p) ∧ (L.length : Int) = n

theorem IsCount.congr {P Q : Pos → Prop} {n} (h : IsCount P n) (he : ∀ p, Q p ↔ P p) : IsCount Q n := by
  obtain ⟨L, h1, h2, h3⟩ := h
  exact ⟨L, h1, fun p => (h2 p).trans (he p).symm, h3⟩

theorem IsCount.add {P Q : Pos → Prop} {n} (h : IsCount P n) {a : Pos} (ha : ¬ P a) (he : ∀ p, Q p ↔ P p ∨ p = a) : IsCount Q (n + 1) := by
  obtain ⟨L, h1, h2, h3⟩ := h
  refine ⟨a :: L, List.nodup_cons.2 ⟨fun hm => ha ((h2 a).1 hm), h1⟩, ?_, by simp; omega⟩
  intro p; rw [List.mem_cons, he, h2]; tauto

theorem IsCount.drop {P Q : Pos → Prop} {n} (h : IsCount P n) {a : Pos} (ha : P a) (he : ∀ p, Q p ↔ P p ∧ p ≠ a) : IsCount Q (n - 1) := by
  obtain ⟨L, h1, h2, h3⟩ := h
  have hm := (h2 a).2 ha
  refine ⟨L.erase a, h1.erase a, ?_, ?_⟩
  · intro p; rw [h1.mem_erase_iff, he, h2]; tauto
  · have := List.length_erase_of_mem hm
    have : 0 < L.length := List.length_pos_of_mem hm
    omega

theorem IsCount.move {P Q : Pos → Prop} {n} (h : IsCount P n) {a b : Pos} (hb : ¬ P b) (hQa : ¬ Q a)
    (hab : Q b ↔ P a) (he : ∀ p, p ≠ a → p ≠ b → (Q p ↔ P p)) : IsCount Q n := by
  by_cases hPa : P a
  · have hne : a ≠ b := by rintro rfl; exact hb hPa
    have h1 := h.drop (Q := fun p => P p ∧ p ≠ a) hPa (fun _ => Iff.rfl)
    have h2 := h1.add (a := b) (Q := Q) (fun hh => hb hh.1) ?_
    · have : n - 1 + 1 = n := by omega
      rwa [this] at h2
    · intro p
      by_cases h1 : p = a
      · subst h1; constructor
        · intro hq; exact absurd hq hQa
        · rintro (hh | hh)
          · exact absurd rfl hh.2
          · exact absurd hh hne
      · by_cases h2 : p = b
        · subst h2; simp [hab, hPa]
        · rw [he p h1 h2]; simp [h1, h2]
  · refine h.congr ?_
    intro p
    by_cases h1 : p = a
    · subst h1; simp [hQa, hPa]
    · by_cases h2 : p = b
      · subst h2; simp [hab, hPa, hb]
      · exact he p h1 h2

theorem IsCount.le_one {P : Pos → Prop} {n} (h : IsCount P n) (hn : n ≤ 1) {a : Pos} (ha : P a) : ∀ p, P p → p = a := by
  obtain ⟨L, h1, h2, h3⟩ := h
  intro p hp
  have hm := (h2 a).2 ha
  have hm' := (h2 p).2 hp
  match L, hm, hm' with
  | [x], hm, hm' => simp at hm hm'; rw [hm, hm']
  | x :: y :: t, _, _ => simp at h3; omega

theorem IsCount.pos {P : Pos → Prop} {n} (h : IsCount P n) {a : Pos} (ha : P a) : 0 < n := by
  obtain ⟨L, h1, h2, h3⟩ := h
  have := List.length_pos_of_mem ((h2 a).2 ha)
  omega

theorem IsCount.unique {P : Pos → Prop} {n m} (h : IsCount P n) (h' : IsCount P m) : n = m := by
  obtain ⟨L, h1, h2, h3⟩ := h
  obtain ⟨L', g1, g2, g3⟩ := h'
  have : L.Perm L' := (List.perm_ext_iff_of_nodup h1 g1).2 (fun p => (h2 p).trans (g2 p).symm)
  have := this.length_eq
  omega

theorem IsCount.zero {P : Pos → Prop} (h : ∀ p, ¬ P p) : IsCount P 0 := ⟨[], List.nodup_nil, fun p => by simp [h p], rfl⟩

/-! ## The invariant -/

/-- The object a word refers to is allocated (records are treated elsewhere). -/
def LiveS (h : Heap) (w : Word) : Prop :=
  match kind w with
  | .lstr => ∃ s, h.lstrs (decodeLongstr w) = some s
  | .sstr => ∃ s, h.sstrs (decodeShortstr w) = some s
  | .dbl => ∃ s, h.dbls (decodeFulldouble w) = some s
  | .int => ∃ s, h.ints (decodeFullintOffset w) = some s
  | _ => True

/-- Words whose object belongs to a single place. -/
def Owned (w : Word) : Prop := kind w = .sstr ∨ kind w = .dbl ∨ kind w = .int

/-- What identifies a long string: bytes, extra string, type. -/
abbrev Key := List Byte × Option (List Byte) × Word

def keyOf (h : Heap) (o : Word) : Option Key :=
  (h.lstrs o).bind fun s => (extraOf h s).map fun e => (s.data.take s.len, e, s.type)

def hashK (n : Nat) (k : Key) : Nat := hashTyped n k.1 k.2.1

def lnext (h : Heap) (w : Word) : Option Word := (h.lstrs (decodeLongstr w)).map (·.chain)

/-- The bucket chains end and contain strings of that bucket. -/
def HashOK (h : Heap) : Prop :=
  ∃ hc : Nat → List Word, (∀ b, Chain (lnext h) (h.hash b) (hc b)) ∧
    (∀ b w, w ∈ hc b → isLongstr w = true ∧ ∃ k, keyOf h (decodeLongstr w) = some k ∧ hashK h.hlen k = b)

/-- Every long string is in its chain. -/
def Complete (h : Heap) : Prop :=
  ∀ o k l, keyOf h o = some k → Chain (lnext h) (h.hash (hashK h.hlen k)) l → encodeLongstr o ∈ l

/-- There are no two equal long strings. -/
def Uniq (h : Heap) : Prop := ∀ o o' k, keyOf h o = some k → keyOf h o' = some k → o = o'

/-- The word is a string without extra string (as stored in the extra string word). -/
def ExtraOK (h : Heap) (w : Word) : Prop :=
  w = 0#64 ∨ isShortstr w = true ∨
    (isLongstr w = true ∧ ∃ e, h.lstrs (decodeLongstr w) = some e ∧ e.extra = 0#64 ∧ 0#8 ∈ e.data)

/-- A long string object has the layout made by find_create_longstr. -/
def Layout (s : LStr) : Prop :=
  ∃ data type, (type = 5#64 ∨ type = 6#64 ∨ type = 7#64 ∨ type = 8#64) ∧ s = { newLong data type s.extra s.chain with refc := s.refc }

/-- The invariant of everything but records and cells. `F` gives the words held by record fields and temporary variables. `C` says whether
interning is claimed. -/
structure SInv (C : Prop) (h : Heap) (F : Pos → Option Word) : Prop where
  live : ∀ p w, Held h F p w → LiveS h w
  own : ∀ p q w, Owned w → Held h F p w → Held h F q w → p = q
  refc : ∀ o s, h.lstrs o = some s → IsCount (fun p => Held h F p (encodeLongstr o)) s.refc
  ext : ∀ o s, h.lstrs o = some s → ExtraOK h s.extra
  layout : ∀ o s, h.lstrs o = some s → Layout s
  al : ∀ o s, h.lstrs o = some s → Aligned o
  sstr : ∀ o b, h.sstrs o = some b → 0#8 ∈ b
  hash : HashOK h
  full : C → Complete h ∧ Uniq h

/-- Change one place. -/
def setF (F : Pos → Option Word) (p : Pos) (w : Option Word) : Pos → Option Word := fun q => if q = p then w else F q

end WG.Recs
