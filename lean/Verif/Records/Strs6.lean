import Verif.Records.Strs5
/-! # The string area: find_create_longstr and the encoding functions -/
namespace WG.Recs

variable {C : Prop} {h h' : Heap} {F F' : Pos → Option Word}

theorem setF_back {p : Pos} {w : Option Word} (hF : F p = none) : setF (setF F p w) p none = F := by
  funext q; simp only [setF]; split_ifs with c
  · rw [c, hF]
  · rfl

/-- The last part of find_create_longstr: the extra string word `e` is stored and counted. -/
theorem finish (hI : SInv C h F) {i : Nat} {e o head type : Word} {data : List Byte} {ex : Option (List Byte)} {l0 : List Word}
    (hF : F (.tmp i) = none) (hle : LiveS h e) (hoe : Owned e → ∀ q, ¬ Held h F q e) (hx : ExtraOK h e)
    (hx2 : (if e = 0#64 then some none else (decodeStr h e).map some) = some ex)
    (ho : h.lstrs o = none) (ha : Aligned o) (ht : StrType type) (hl0 : Chain (lnext h) head l0)
    (hl1 : ∀ w ∈ l0, isLongstr w = true ∧ ∃ k, keyOf h (decodeLongstr w) = some k ∧ hashK h.hlen k = hashTyped h.hlen data ex)
    (hC : C → head = h.hash (hashTyped h.hlen data ex) ∧ ∀ o', keyOf h o' ≠ some (data, ex, type)) :
    ∃ h3, (incRef h e).map (fun h2 => (({ h2 with lstrs := upd h2.lstrs o (some (newLong data type e head))
                                                  hash := fun i => if i = hashTyped h.hlen data ex then encodeLongstr o else h2.hash i } : Heap),
              encodeLongstr o)) = some (h3, encodeLongstr o) ∧
      SInv C h3 F ∧ Grown h h3 ∧ keyOf h3 o = some (data, ex, type) ∧ (∀ o', o' ≠ o → keyOf h3 o' = keyOf h o') ∧
      (∀ b, b ≠ hashTyped h.hlen data ex → h3.hash b = h.hash b) ∧ h3.sstrs = h.sstrs ∧
      (∀ o', o' ≠ o → (h3.lstrs o' = none ↔ h.lstrs o' = none)) := by
  obtain ⟨h2, g1, g2, g3⟩ := hI.hold (p := .tmp i) rfl (by intro x e; rw [hF] at e; cases e) hle hoe
  have hlen : hashTyped h.hlen data ex = hashTyped h2.hlen data ex := by rw [g2.hlen]
  have hc := g3.create (i := i) (e := e) (o := o) (head := head) (type := type) (data := data) (ex := ex) (l0 := l0) (by simp [setF])
    (g2.extraOK hx) (by simp only [decodeStr, g2.decodeBytes]; exact hx2) ((g2.none_iff o).2 ho) ha ht (by rw [g2.lnext]; exact hl0)
    (by
      intro w hw
      obtain ⟨a, k, b, c⟩ := hl1 w hw
      exact ⟨a, k, by rw [g2.key]; exact b, by rw [g2.hlen]; exact c⟩)
    (by
      intro c
      obtain ⟨a, b⟩ := hC c
      exact ⟨by rw [g2.hlen, g2.hash]; exact a, fun o' => by rw [g2.key]; exact b o'⟩)
  rw [setF_back hF] at hc
  obtain ⟨c1, c2, c3, c4⟩ := hc
  refine ⟨_, ?_, c1, g2.grown.trans c2, c3, ?_, ?_, ?_, ?_⟩
  · rw [g1, hlen]; rfl
  · intro o' ho'; rw [c4 o' ho', g2.key]
  · intro b hb
    rw [hlen] at hb
    simp only [Heap.newL, if_neg hb, g2.hash]
  · exact g2.sstrs
  · intro o' ho'
    simp only [Heap.newL, upd_ne _ _ ho']
    exact g2.none_iff o'

/-- What find_create_longstr does with a key that has no extra string. -/
theorem findCreate_none (hI : SInv C h F) {i : Nat} (hF : F (.tmp i) = none) (ex : Heap → List Byte → Option (Heap × Word))
    (data : List Byte) {type : Word} (ht : StrType type) {al : Option Word} (hal : ∀ o, al = some o → h.lstrs o = none ∧ Aligned o) :
    ∃ h' w, findCreate ex h data none type al = some (h', w) ∧ SInv C h' F ∧ Grown h h' ∧ h'.sstrs = h.sstrs ∧
      ((w = 0#64 ∧ h' = h ∧ al = none) ∨ (isLongstr w = true ∧ keyOf h' (decodeLongstr w) = some (data, none, type))) ∧
      (∀ o', keyOf h' o' = keyOf h o' ∨ keyOf h' o' = some (data, none, type)) ∧
      (∀ b, b ≠ hashTyped h.hlen data none → h'.hash b = h.hash b) ∧
      (C → (∃ o, keyOf h o = some (data, none, type)) → h' = h) ∧
      (∀ o', h.lstrs o' = none → al ≠ some o' → h'.lstrs o' = none) := by
  obtain ⟨hc, hc1, hc2⟩ := id hI.hash
  obtain ⟨r, g1, g2⟩ := findBucket_ok hI.layout data none type (hc (hashTyped h.hlen data none)) walkFuel _ (hc1 _) (hc1 _).length_lt
    (fun w hw => (hc2 _ w hw).2.imp fun _ k => k.1)
  unfold findCreate
  simp only [g1]
  rcases g2 with ⟨rfl, g2⟩ | ⟨g2, g3⟩
  · have hnew : C → ∀ o', keyOf h o' ≠ some (data, none, type) := by
      intro c o' hk
      have hm := (hI.full c).1 o' _ _ hk (hc1 _)
      have := g2 _ hm
      cases hs : h.lstrs o' with
      | none => simp [keyOf, hs] at hk
      | some s => rw [lstr_dec_enc (hI.al o' s hs)] at this; exact this hk
    simp only [ne_eq, not_true_eq_false, if_false]
    cases al with
    | none =>
      exact ⟨h, 0#64, rfl, hI, Grown.refl h, rfl, Or.inl ⟨rfl, rfl, rfl⟩, fun _ => Or.inl rfl, fun _ _ => rfl, fun _ _ => rfl, fun _ e _ => e⟩
    | some o =>
      obtain ⟨a1, a2⟩ := hal o rfl
      obtain ⟨h3, q1, q2, q3, q4, q5, q6, q7, q8⟩ := finish hI (i := i) (e := 0#64) (o := o)
        (head := h.hash (hashTyped h.hlen data none)) (type := type) (data := data) (ex := none) hF
        (by rw [LiveS]; exact (by decide : kind (0#64) = .imm) ▸ trivial)
        (by rintro (k | k | k) <;> exact absurd k (by decide)) (Or.inl rfl) (by simp) a1 a2 ht (hc1 _)
        (fun w hw => hc2 _ w hw) (fun c => ⟨rfl, hnew c⟩)
      refine ⟨h3, encodeLongstr o, q1, q2, q3, q7, Or.inr ⟨lstr_is a2, by rw [lstr_dec_enc a2]; exact q4⟩, ?_, q6, ?_, ?_⟩
      · intro o'
        by_cases ho : o' = o
        · rw [ho]; exact Or.inr q4
        · exact Or.inl (q5 o' ho)
      · rintro c ⟨o', ho'⟩; exact absurd ho' (hnew c o')
      · intro o' h1 h2
        exact (q8 o' (by rintro rfl; exact h2 rfl)).2 h1
  · have h0 : r ≠ 0#64 := Seg.mem_ne_zero (hc1 _) r g2
    simp only [ne_eq, h0, not_false_eq_true, if_true]
    exact ⟨h, r, rfl, hI, Grown.refl h, rfl, Or.inr ⟨(hc2 _ r g2).1, g3⟩, fun _ => Or.inl rfl, fun _ _ => rfl, fun _ _ => rfl, fun _ e _ => e⟩

/-- New short strings. -/
theorem newShort (hI : SInv C h F) {o : Word} {b : List Byte} (ho : h.sstrs o = none) (hb : 0#8 ∈ b) :
    SInv C { h with sstrs := upd h.sstrs o (some b) } F ∧ Grown h { h with sstrs := upd h.sstrs o (some b) } := by
  have hg : Grown h { h with sstrs := upd h.sstrs o (some b) } := by
    refine ⟨rfl, rfl, rfl, fun x y hx => ?_, fun _ _ e => e, fun _ _ e => e, fun _ s e => ⟨s, e, rfl, rfl, rfl, rfl⟩⟩
    dsimp only
    rw [upd_ne]
    · exact hx
    · rintro rfl; rw [ho] at hx; cases hx
  refine ⟨?_, hg⟩
  refine hI.cells rfl rfl rfl ?_ (fun p w hp => hg.shrunk.liveS (hI.live p w hp)) (fun _ _ e => e) (fun _ _ _ e => e) ?_
  · intro x y hx
    dsimp only at hx
    by_cases hxo : x = o
    · subst hxo; rw [upd_self] at hx; cases hx; exact hb
    · rw [upd_ne _ _ hxo] at hx; exact hI.sstr x y hx
  · intro x s hs hsx
    have hl := hI.live (.ext x) _ ⟨s, hs, rfl⟩
    rw [LiveS, kind_sstr hsx] at hl
    obtain ⟨y, hy⟩ := hl
    dsimp only
    rw [upd_ne]
    intro e; rw [e, ho] at hy; cases hy

theorem newDbl (hI : SInv C h F) {o v : Word} (ho : h.dbls o = none) :
    SInv C { h with dbls := upd h.dbls o (some v) } F ∧ Grown h { h with dbls := upd h.dbls o (some v) } := by
  have hg : Grown h { h with dbls := upd h.dbls o (some v) } := by
    refine ⟨rfl, rfl, rfl, fun _ _ e => e, fun x y hx => ?_, fun _ _ e => e, fun _ s e => ⟨s, e, rfl, rfl, rfl, rfl⟩⟩
    dsimp only
    rw [upd_ne]
    · exact hx
    · rintro rfl; rw [ho] at hx; cases hx
  exact ⟨hI.cells rfl rfl rfl hI.sstr (fun p w hp => hg.shrunk.liveS (hI.live p w hp)) (fun _ _ e => e) (fun _ _ _ e => e)
    (fun _ _ _ _ => rfl), hg⟩

theorem newInt (hI : SInv C h F) {o v : Word} (ho : h.ints o = none) :
    SInv C { h with ints := upd h.ints o (some v) } F ∧ Grown h { h with ints := upd h.ints o (some v) } := by
  have hg : Grown h { h with ints := upd h.ints o (some v) } := by
    refine ⟨rfl, rfl, rfl, fun _ _ e => e, fun _ _ e => e, fun x y hx => ?_, fun _ s e => ⟨s, e, rfl, rfl, rfl, rfl⟩⟩
    dsimp only
    rw [upd_ne]
    · exact hx
    · rintro rfl; rw [ho] at hx; cases hx
  exact ⟨hI.cells rfl rfl rfl hI.sstr (fun p w hp => hg.shrunk.liveS (hI.live p w hp)) (fun _ _ e => e) (fun _ _ _ e => e)
    (fun _ _ _ _ => rfl), hg⟩

/-- The state after an encoding: the value is live, and if it is of a kind that belongs to one place, it belongs to none yet. -/
structure Encoded (C : Prop) (h h' : Heap) (F : Pos → Option Word) (w : Word) : Prop where
  inv : SInv C h' F
  grown : Grown h h'
  live : LiveS h' w
  loose : Owned w → ∀ q, ¬ Held h' F q w

theorem Encoded.plain (hI : SInv C h F) {w : Word} (hw : kind w = .imm) : Encoded C h h F w :=
  ⟨hI, Grown.refl h, by rw [LiveS, hw]; trivial, by rintro (k | k | k) <;> rw [hw] at k <;> cases k⟩

theorem kind_illegal : kind illegal = .imm := by decide

theorem cstr_pad (x : List Byte) (hx : 0#8 ∉ x) (n : Nat) (hn : 0 < n) (r : List Byte) :
    cstr (x ++ List.replicate n 0#8 ++ r) = some x := by
  unfold cstr
  have : 0#8 ∈ x ++ List.replicate n 0#8 ++ r := by
    simp only [List.mem_append, List.mem_replicate]; left; right; exact ⟨by omega, trivial⟩
  rw [if_pos this]
  obtain ⟨m, rfl⟩ : ∃ m, n = m + 1 := ⟨n - 1, by omega⟩
  congr 1
  rw [List.append_assoc, List.takeWhile_append_of_pos]
  · simp [List.replicate_succ]
  · intro a ha; simp only [ne_eq, decide_eq_true_eq]; rintro rfl; exact hx ha

theorem encShort_ok (hI : SInv C h F) {str : List Byte} (h0 : 0#8 ∉ str) (hl : str.length < 32) {al : Option Word}
    (hal : ∀ o, al = some o → h.sstrs o = none ∧ Aligned o) :
    Encoded C h (encShort h str al).1 F (encShort h str al).2 ∧ (encShort h str al).1.lstrs = h.lstrs ∧
      (encShort h str al).1.hash = h.hash ∧
      ((al = none ∧ (encShort h str al) = (h, illegal)) ∨
       (isShortstr (encShort h str al).2 = true ∧ decodeStr (encShort h str al).1 (encShort h str al).2 = some str)) := by
  cases al with
  | none => exact ⟨Encoded.plain hI kind_illegal, rfl, rfl, Or.inl ⟨rfl, rfl⟩⟩
  | some o =>
    obtain ⟨a1, a2⟩ := hal o rfl
    have hmem : 0#8 ∈ str ++ List.replicate (32 - str.length) 0#8 := by
      simp only [List.mem_append, List.mem_replicate]; right; exact ⟨by omega, trivial⟩
    obtain ⟨g1, g2⟩ := newShort hI a1 hmem
    have hk := kind_sstr (sstr_is a2)
    refine ⟨⟨g1, g2, ?_, ?_⟩, rfl, rfl, Or.inr ⟨sstr_is a2, ?_⟩⟩
    · simp only [encShort]
      rw [LiveS, hk]
      simp only [sstr_dec_enc a2, upd_self]
      exact ⟨_, rfl⟩
    · intro _ q hq
      have hq' : Held h F q (encodeShortstr o) := by cases q <;> exact hq
      have := hI.live q _ hq'
      rw [LiveS, hk] at this
      simp [sstr_dec_enc a2, a1] at this
    · simp only [encShort, decodeStr, decodeBytes, sstr_is a2, if_true, sstr_dec_enc a2, upd_self, Option.bind_some]
      have := cstr_pad str h0 (32 - str.length) (by omega) []
      rwa [List.append_nil] at this

theorem enc_idem {w : Word} (hw : isLongstr w = true) : encodeLongstr w = w := by
  have h1 := lstr_enc_dec hw
  have h : w &&& 7#64 = 4#64 := by simpa [isLongstr] using hw
  conv_lhs => rw [← h1]
  conv_rhs => rw [← h1]
  simp only [encodeLongstr]
  rw [BitVec.or_assoc, BitVec.or_self]

/-- Bytes of a long string with a key. -/
theorem bytes_of_key (hI : SInv C h F) {w : Word} {data : List Byte} {ex : Option (List Byte)} {t : Word} (hw : isLongstr w = true)
    (hk : keyOf h (decodeLongstr w) = some (data, ex, t)) : ∃ s pad, h.lstrs (decodeLongstr w) = some s ∧ s.data = data ++ pad ∧
      s.len = data.length ∧ s.type = t ∧ extraOf h s = some ex ∧ StrType t := by
  cases hs : h.lstrs (decodeLongstr w) with
  | none => simp [keyOf, hs] at hk
  | some s =>
    simp only [keyOf, hs, Option.bind_some] at hk
    cases he : extraOf h s with
    | none => rw [he] at hk; simp at hk
    | some e =>
      rw [he] at hk
      simp only [Option.map_some, Option.some.injEq, Prod.mk.injEq] at hk
      obtain ⟨k1, k2, k3⟩ := hk
      have hf := (hI.layout _ s hs).facts
      refine ⟨s, s.data.drop s.len, rfl, ?_, ?_, k3, by rw [he, k2], by rw [← k3]; exact hf.2⟩
      · rw [← k1, List.take_append_drop]
      · rw [← k1, List.length_take, Nat.min_eq_left hf.1]

theorem decodeStr_of_key (hI : SInv C h F) {w : Word} {x : List Byte} {ex : Option (List Byte)} {t : Word} (hw : isLongstr w = true)
    (h0 : 0#8 ∉ x) (hk : keyOf h (decodeLongstr w) = some (x ++ [0#8], ex, t)) : decodeStr h w = some x := by
  obtain ⟨s, pad, e1, e2, _⟩ := bytes_of_key hI hw hk
  have hns : isShortstr w = false := by rcases kind_cases w with k | k | k | k | k | k <;> simp_all
  have := cstr_pad x h0 1 (by omega) pad
  simp only [decodeStr, decodeBytes, hns, hw, if_true, e1, Option.map_some, Option.bind_some, e2]
  simpa using this

/-- The extra string is new, as long as to be stored as a long string, and goes into the bucket of the string itself. -/
def Clash (h : Heap) (data : List Byte) (extra : Option (List Byte)) (type : Word) : Prop :=
  (∀ o, keyOf h o ≠ some (data, extra, type)) ∧
  ∃ x, extra = some x ∧ 32 ≤ x.length ∧ (∀ o, keyOf h o ≠ some (x ++ [0#8], none, 5#64)) ∧
    hashTyped h.hlen (x ++ [0#8]) none = hashTyped h.hlen data extra

/-- Allocations are of free objects. -/
structure AllocOK (h : Heap) (al : StrAlloc) : Prop where
  short : ∀ o, al.short = some o → h.sstrs o = none ∧ Aligned o
  exShort : ∀ o, al.exShort = some o → h.sstrs o = none ∧ Aligned o
  long : ∀ o, al.long = some o → h.lstrs o = none ∧ Aligned o
  exLong : ∀ o, al.exLong = some o → h.lstrs o = none ∧ Aligned o
  ne : ∀ o, al.long = some o → al.exLong ≠ some o

theorem strType5 : StrType 5#64 := Or.inl rfl

theorem encExtra_ok (hI : SInv C h F) {i : Nat} (hF : F (.tmp i) = none) {al : StrAlloc} (hal : AllocOK h al) {x : List Byte} (h0 : 0#8 ∉ x) :
    ∃ h1 e, encExtra al h x = some (h1, e) ∧ Encoded C h h1 F e ∧
      ((e = illegal ∧ (if x.length < 32 then al.exShort = none else al.exLong = none)) ∨
        (e ≠ illegal ∧ e ≠ 0#64 ∧ ExtraOK h1 e ∧ decodeStr h1 e = some x)) ∧
      (∀ o', keyOf h1 o' = keyOf h o' ∨ keyOf h1 o' = some (x ++ [0#8], none, 5#64)) ∧
      (∀ b, (x.length < 32 ∨ b ≠ hashTyped h.hlen (x ++ [0#8]) none) → h1.hash b = h.hash b) ∧
      (C → (∃ o, keyOf h o = some (x ++ [0#8], none, 5#64)) → h1.hash = h.hash) ∧
      (∀ o', h.lstrs o' = none → al.exLong ≠ some o' → h1.lstrs o' = none) := by
  rw [encExtra]
  by_cases hl : x.length < 32 <;> simp only [hl, if_true, if_false]
  · obtain ⟨g1, g2, g3, g4⟩ := encShort_ok hI h0 hl hal.exShort
    refine ⟨(encShort h x al.exShort).1, (encShort h x al.exShort).2, rfl, g1, ?_, ?_, fun b _ => by rw [g3], fun _ _ => g3, fun o' e _ => by rw [g2]; exact e⟩
    · rcases g4 with ⟨a, b⟩ | ⟨a, b⟩
      · left; rw [b]; exact ⟨rfl, a⟩
      · right
        have hk := kind_sstr a
        refine ⟨?_, ?_, Or.inr (Or.inl a), b⟩
        · intro e; rw [e, kind_illegal] at hk; cases hk
        · intro e; rw [e] at hk; exact absurd hk (by decide)
    · intro o'
      left
      cases hs : h.lstrs o' with
      | none => simp [keyOf, hs, g2]
      | some s => exact g1.grown.shrunk.key hI hs
  · obtain ⟨h1, w, q1, q2, q3, q4, q5, q6, q7, q8, q9⟩ :=
      findCreate_none hI hF (fun _ _ => none) (x ++ [0#8]) strType5 hal.exLong
    rw [q1]
    refine ⟨h1, if w = 0#64 then illegal else encodeLongstr w, rfl, ?_, ?_, q6, fun b hb => q7 b (by simpa using hb),
      fun c e => by rw [q8 c e], q9⟩
    · rcases q5 with ⟨a, b, c⟩ | ⟨a, b⟩
      · rw [if_pos a, b]; exact Encoded.plain hI kind_illegal
      · have h0 : w ≠ 0#64 := by rintro rfl; exact absurd a (by decide)
        rw [if_neg h0, enc_idem a]
        refine ⟨q2, q3, ?_, ?_⟩
        · rw [LiveS, isPtr_lstr a]
          obtain ⟨s, _, e, _⟩ := bytes_of_key q2 a b
          exact ⟨s, e⟩
        · rintro (k | k | k) <;> rw [isPtr_lstr a] at k <;> cases k
    · rcases q5 with ⟨a, b, c⟩ | ⟨a, b⟩
      · rw [if_pos a]; exact Or.inl ⟨rfl, c⟩
      · have hw0 : w ≠ 0#64 := by rintro rfl; exact absurd a (by decide)
        rw [if_neg hw0, enc_idem a]
        right
        obtain ⟨s, pad, e1, e2, e3, e4, e5, _⟩ := bytes_of_key q2 a b
        refine ⟨?_, hw0, Or.inr (Or.inr ⟨a, s, e1, ?_, by rw [e2]; simp⟩), decodeStr_of_key q2 a h0 b⟩
        · intro e; rw [e] at a; exact absurd a (by decide)
        · unfold extraOf at e5
          by_contra hne
          rw [if_neg hne] at e5
          simp at e5

/-- find_create_longstr as called from wg_encode_unistr and wg_encode_uniblob. -/
theorem findCreate_ok (hI : SInv C h F) {i : Nat} (hF : F (.tmp i) = none) {al : StrAlloc} (hal : AllocOK h al) (data : List Byte)
    {extra : Option (List Byte)} (h0 : ∀ x, extra = some x → 0#8 ∉ x) {type : Word} (ht : StrType type) (hC : C → ¬ Clash h data extra type) :
    ∃ h' w, findCreate (encExtra al) h data extra type al.long = some (h', w) ∧ SInv C h' F ∧ Grown h h' ∧
      ((w = 0#64 ∧ (al.long = none ∨ ∃ x, extra = some x ∧ (if x.length < 32 then al.exShort = none else al.exLong = none))) ∨
        (isLongstr w = true ∧ keyOf h' (decodeLongstr w) = some (data, extra, type))) ∧
      (C → ∀ o, keyOf h o = some (data, extra, type) → h' = h ∧ w = encodeLongstr o) := by
  cases extra with
  | none =>
    obtain ⟨h', w, g1, g2, g3, g4, g5, g6, g7, g8, g9⟩ := findCreate_none hI hF (encExtra al) data ht hal.long
    refine ⟨h', w, g1, g2, g3, ?_, ?_⟩
    · rcases g5 with ⟨a, b, c⟩ | g5
      · exact Or.inl ⟨a, Or.inl c⟩
      · exact Or.inr g5
    · intro c o ho
      have he := g8 c ⟨o, ho⟩
      refine ⟨he, ?_⟩
      rcases g5 with ⟨a, b, d⟩ | ⟨a, b⟩
      · exfalso
        obtain ⟨hc, hc1, hc2⟩ := id hI.hash
        have hm := (hI.full c).1 o _ _ ho (hc1 _)
        obtain ⟨r, q1, q2⟩ := findBucket_ok hI.layout data none type (hc (hashTyped h.hlen data none)) walkFuel _ (hc1 _) (hc1 _).length_lt
          (fun w hw => (hc2 _ w hw).2.imp fun _ k => k.1)
        unfold findCreate at g1
        simp only [q1] at g1
        rcases q2 with ⟨rfl, q2⟩ | ⟨q2, q3⟩
        · refine q2 _ hm ?_
          cases hs : h.lstrs o with
          | none => simp [keyOf, hs] at ho
          | some s => rw [lstr_dec_enc (hI.al o s hs)]; exact ho
        · have hr : r ≠ 0#64 := Seg.mem_ne_zero (hc1 _) r q2
          simp only [ne_eq, hr, not_false_eq_true, if_true, Option.some.injEq, Prod.mk.injEq] at g1
          exact hr (g1.2.trans a)
      · rw [he] at b
        rw [← (hI.full c).2 _ _ _ b ho, lstr_enc_dec a]
  | some x =>
    obtain ⟨hc, hc1, hc2⟩ := id hI.hash
    obtain ⟨r, g1, g2⟩ := findBucket_ok hI.layout data (some x) type (hc (hashTyped h.hlen data (some x))) walkFuel _ (hc1 _) (hc1 _).length_lt
      (fun w hw => (hc2 _ w hw).2.imp fun _ k => k.1)
    unfold findCreate
    simp only [g1]
    rcases g2 with ⟨rfl, g2⟩ | ⟨g2, g3⟩
    · have hnew : C → ∀ o', keyOf h o' ≠ some (data, some x, type) := by
        intro c o' hk
        have hm := (hI.full c).1 o' _ _ hk (hc1 _)
        have := g2 _ hm
        cases hs : h.lstrs o' with
        | none => simp [keyOf, hs] at hk
        | some s => rw [lstr_dec_enc (hI.al o' s hs)] at this; exact this hk
      simp only [ne_eq, not_true_eq_false, if_false]
      cases hlo : al.long with
      | none =>
        exact ⟨h, 0#64, rfl, hI, Grown.refl h, Or.inl ⟨rfl, Or.inl rfl⟩, fun c o ho => absurd ho (hnew c o)⟩
      | some o =>
        obtain ⟨a1, a2⟩ := hal.long o hlo
        obtain ⟨h1, e, q1, q2, q3, q4, q5, q6, q7⟩ := encExtra_ok hI hF hal (h0 x rfl)
        simp only [q1]
        by_cases hill : e = illegal
        · rw [if_pos hill]
          refine ⟨h1, 0#64, rfl, q2.inv, q2.grown, Or.inl ⟨rfl, Or.inr ⟨x, rfl, ?_⟩⟩, fun c o ho => absurd ho (hnew c o)⟩
          rcases q3 with q3 | q3
          · exact q3.2
          · exact absurd hill q3.1
        · rw [if_neg hill]
          rcases q3 with q3 | ⟨_, e0, eok, edec⟩
          · exact absurd q3.1 hill
          have hlen := q2.grown.hlen
          have hbl : hashTyped h.hlen data (some x) = hashTyped h1.hlen data (some x) := by rw [hlen]
          have hkeys : ∀ w ∈ hc (hashTyped h.hlen data (some x)), keyOf h1 (decodeLongstr w) = keyOf h (decodeLongstr w) := by
            intro w hw
            obtain ⟨_, k, hk, _⟩ := hc2 _ w hw
            cases hs : h.lstrs (decodeLongstr w) with
            | none => simp [keyOf, hs] at hk
            | some s => exact q2.grown.shrunk.key hI hs
          have hchain : Chain (lnext h1) (h.hash (hashTyped h.hlen data (some x))) (hc (hashTyped h.hlen data (some x))) := by
            refine Seg.congr ?_ (hc1 _)
            intro w hw
            obtain ⟨_, k, hk, _⟩ := hc2 _ w hw
            cases hs : h.lstrs (decodeLongstr w) with
            | none => simp [keyOf, hs] at hk
            | some s =>
              obtain ⟨s', z1, z2, z3, _⟩ := q2.grown.lstrs _ s hs
              simp [lnext, hs, z1, z3]
          obtain ⟨h3, f1, f2, f3, f4, f5, f6, f7, f8⟩ := finish q2.inv (i := i) (e := e) (o := o)
            (head := h.hash (hashTyped h.hlen data (some x))) (type := type) (data := data) (ex := some x) hF q2.live q2.loose eok
            (by rw [if_neg e0, edec]; rfl) (q7 o a1 (hal.ne o hlo)) a2 ht hchain
            (by
              intro w hw
              obtain ⟨z1, k, z2, z3⟩ := hc2 _ w hw
              exact ⟨z1, k, by rw [hkeys w hw]; exact z2, by rw [hlen]; exact z3⟩)
            (by
              intro c
              refine ⟨?_, ?_⟩
              · rw [← hbl]
                by_cases hold : ∃ o, keyOf h o = some (x ++ [0#8], none, 5#64)
                · rw [q6 c hold]
                · symm
                  refine q5 _ ?_
                  by_cases hl : x.length < 32
                  · exact Or.inl hl
                  · right
                    intro hb
                    exact hC c ⟨hnew c, x, rfl, by omega, fun o ho => hold ⟨o, ho⟩, hb.symm⟩
              · intro o' ho'
                rcases q4 o' with z | z
                · rw [z] at ho'; exact hnew c o' ho'
                · rw [z] at ho'; cases ho')
          rw [hbl] at f1 ⊢
          refine ⟨h3, encodeLongstr o, f1, f2, q2.grown.trans f3, Or.inr ⟨lstr_is a2, by rw [lstr_dec_enc a2]; exact f4⟩,
            fun c o ho => absurd ho (hnew c o)⟩
    · have hr : r ≠ 0#64 := Seg.mem_ne_zero (hc1 _) r g2
      simp only [ne_eq, hr, not_false_eq_true, if_true]
      refine ⟨h, r, rfl, hI, Grown.refl h, Or.inr ⟨(hc2 _ r g2).1, g3⟩, ?_⟩
      intro c o ho
      exact ⟨rfl, by rw [← (hI.full c).2 _ _ _ g3 ho, lstr_enc_dec (hc2 _ r g2).1]⟩

end WG.Recs
