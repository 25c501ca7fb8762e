import Verif.Journal.Replay
import Verif.Encoding.Lemmas
/-! Property C40 (journal replay). -/
namespace WG

/-! ## Tagged offsets -/

/-- The tag bits of a stored value. -/
def tagBits : EncData → Word
  | .int _ => 1#64
  | .double _ => 2#64
  | .str t s x => if x = [] ∧ t = 5#8 ∧ s.length < 32 then 6#64 else 4#64
  | .unsupported _ => 0#64

theorem tagOf_eq (d : EncData) (hd : d.Supported) (o : Word) : tagOf d o = o ||| tagBits d := by
  cases d with
  | int v => rfl
  | double v => rfl
  | str t s x => unfold tagOf tagBits; simp only; split <;> rfl
  | unsupported t => exact hd.elim

theorem tagBits_cases (d : EncData) (hd : d.Supported) :
    tagBits d = 1#64 ∨ tagBits d = 2#64 ∨ tagBits d = 4#64 ∨ tagBits d = 6#64 := by
  cases d with
  | int v => simp [tagBits]
  | double v => simp [tagBits]
  | str t s x => unfold tagBits; simp only; split <;> simp
  | unsupported t => exact hd.elim

theorem tagOf_low (d : EncData) (hd : d.Supported) (o : Word) (ho : o &&& 7#64 = 0#64) :
    tagOf d o &&& 7#64 = tagBits d := by
  rw [tagOf_eq d hd, aligned_or_and _ _ _ ho (by decide)]
  rcases tagBits_cases d hd with h|h|h|h <;> rw [h] <;> decide

theorem tagOf_low_ne (d : EncData) (hd : d.Supported) (o : Word) (ho : o &&& 7#64 = 0#64) :
    tagOf d o &&& 7#64 ≠ 0#64 := by
  rw [tagOf_low d hd o ho]
  rcases tagBits_cases d hd with h|h|h|h <;> rw [h] <;> decide

theorem tagOf_low3 (d : EncData) (hd : d.Supported) (o : Word) (ho : o &&& 7#64 = 0#64) :
    tagOf d o &&& 3#64 ≠ 3#64 := by
  rw [tagOf_eq d hd, aligned_or_and _ _ _ ho (by decide)]
  rcases tagBits_cases d hd with h|h|h|h <;> rw [h] <;> decide

theorem tagOf_isPtr (d : EncData) (hd : d.Supported) (o : Word) (ho : o &&& 7#64 = 0#64) :
    isPtr (tagOf d o) = true := by
  have h1 := tagOf_low_ne d hd o ho
  have h2 := tagOf_low3 d hd o ho
  have h3 : tagOf d o ≠ 0#64 := by intro h; rw [h] at h1; exact h1 (by decide)
  simp [isPtr, h2, h3]

theorem tagOf_illegal (d : EncData) (hd : d.Supported) (o : Word) (ho : o &&& 7#64 = 0#64) :
    tagOf d o ≠ illegal := by
  intro h
  have := tagOf_low3 d hd o ho
  rw [h] at this
  exact this (by decide)

theorem aligned_isPtr (o : Word) (h0 : o ≠ 0#64) (ho : o &&& 7#64 = 0#64) : isPtr o = true := by
  have : o &&& 3#64 = 0#64 := by
    have : (3#64 : Word) = 7#64 &&& 3#64 := by decide
    rw [this, ← BitVec.and_assoc, ho]; decide
  simp [isPtr, h0, this]

theorem newOff_tagOf (d : EncData) (hd : d.Supported) (o : Word) (ho : o &&& 7#64 = 0#64) :
    (Entry.enc d (tagOf d o)).newOff = some o := by
  cases d with
  | int v => simp only [Entry.newOff, tagOf, decodeFullintOffset, encodeFullintOffset, aligned_or_andnot3 o ho]
  | double v =>
    simp only [Entry.newOff, tagOf, decodeFulldouble, encodeFulldouble, aligned_or_andnot o 2#64 ho (by decide)]
  | str t s x =>
    simp only [Entry.newOff, tagOf]
    split
    · simp only [decodeShortstr, encodeShortstr, aligned_or_andnot o 6#64 ho (by decide)]
    · simp only [decodeLongstr, encodeLongstr, aligned_or_andnot o 4#64 ho (by decide)]
  | unsupported t => exact hd.elim

theorem tagOf_inj (d : EncData) (hd : d.Supported) (o n : Word) (ho : o &&& 7#64 = 0#64) (hn : n &&& 7#64 = 0#64)
    (h : tagOf d n = tagOf d o) : n = o := by
  have h1 := newOff_tagOf d hd o ho
  have h2 := newOff_tagOf d hd n hn
  rw [h, h1] at h2
  exact (Option.some.inj h2).symm

theorem addTranEnc_tagOf (t : Tbl) (d : EncData) (hd : d.Supported) (o n : Word) (ho : o &&& 7#64 = 0#64)
    (hn : n &&& 7#64 = 0#64) : addTranEnc t (tagOf d o) (tagOf d n) = t ++ [(o, n)] := by
  unfold addTranEnc
  rw [if_pos (tagOf_isPtr d hd o ho), tagOf_low d hd o ho]
  have hm : ∀ c : Word, c &&& 7#64 = c → ∀ x : Word, x &&& 7#64 = 0#64 → (x ||| c) &&& ~~~7#64 = x :=
    fun c hc x hx => aligned_or_andnot x c hx hc
  rw [tagOf_eq d hd, tagOf_eq d hd]
  rcases tagBits_cases d hd with h|h|h|h <;> rw [h]
  · rw [if_neg (by decide), if_neg (by decide), if_neg (by decide), if_pos (by decide)]
    simp only [decodeFullintOffset, aligned_or_andnot3 o ho, aligned_or_andnot3 n hn]
  · rw [if_neg (by decide), if_neg (by decide), if_pos rfl]
    simp only [decodeFulldouble, hm 2#64 (by decide) o ho, hm 2#64 (by decide) n hn]
  · rw [if_pos rfl]
    simp only [decodeLongstr, hm 4#64 (by decide) o ho, hm 4#64 (by decide) n hn]
  · rw [if_neg (by decide), if_pos rfl]
    simp only [decodeShortstr, hm 6#64 (by decide) o ho, hm 6#64 (by decide) n hn]

theorem translateEncoded_tagOf (t : Tbl) (d : EncData) (hd : d.Supported) (o : Word) (ho : o &&& 7#64 = 0#64) :
    translateEncoded t (tagOf d o) = tagOf d (translateOffset t o) := by
  unfold translateEncoded
  rw [if_pos (tagOf_isPtr d hd o ho), tagOf_low d hd o ho]
  have hm : ∀ c : Word, c &&& 7#64 = c → (o ||| c) &&& ~~~7#64 = o :=
    fun c hc => aligned_or_andnot o c ho hc
  rw [tagOf_eq d hd, tagOf_eq d hd]
  rcases tagBits_cases d hd with h|h|h|h <;> rw [h]
  · rw [if_neg (by decide), if_neg (by decide), if_neg (by decide), if_neg (by decide), if_pos (by decide)]
    simp only [decodeFullintOffset, encodeFullintOffset, aligned_or_andnot3 o ho]
  · rw [if_neg (by decide), if_neg (by decide), if_neg (by decide), if_pos rfl]
    simp only [decodeFulldouble, encodeFulldouble, hm 2#64 (by decide)]
  · rw [if_neg (by decide), if_pos rfl]
    simp only [decodeLongstr, encodeLongstr, hm 4#64 (by decide)]
  · rw [if_neg (by decide), if_neg (by decide), if_pos rfl]
    simp only [decodeShortstr, encodeShortstr, hm 6#64 (by decide)]

theorem translateEncoded_rec (t : Tbl) (o : Word) (h0 : o ≠ 0#64) (ho : o &&& 7#64 = 0#64) :
    translateEncoded t o = translateOffset t o := by
  unfold translateEncoded
  rw [if_pos (aligned_isPtr o h0 ho), if_pos ho]

theorem translateOffset_append_ne (t : Tbl) (o n x : Word) (h : x ≠ o) :
    translateOffset (t ++ [(o, n)]) x = translateOffset t x := by
  unfold translateOffset
  rw [List.find?_append]
  have : ([(o, n)] : Tbl).find? (fun p => p.1 == x) = none := by simp only [List.find?_cons, List.find?_nil]; rw [show (o == x) = false from by simpa using fun h' : o = x => h h'.symm]
  rw [this]
  cases t.find? (fun p => p.1 == x) <;> rfl

theorem translateOffset_new (t : Tbl) (o n : Word) (h : ∀ p ∈ t, p.1 ≠ o) :
    translateOffset (t ++ [(o, n)]) o = n := by
  unfold translateOffset
  rw [List.find?_append]
  have : t.find? (fun p => p.1 == o) = none := by
    rw [List.find?_eq_none]; intro p hp; simpa using h p hp
  rw [this]; simp

theorem translateOffset_none (t : Tbl) (o : Word) (h : ∀ p ∈ t, p.1 ≠ o) : translateOffset t o = o := by
  unfold translateOffset
  have : t.find? (fun p => p.1 == o) = none := by
    rw [List.find?_eq_none]; intro p hp; simpa using h p hp
  rw [this]

/-- Appending a pair either leaves the translation of its key unchanged or sets it. -/
theorem translateOffset_append_same (t : Tbl) (o n : Word) :
    translateOffset (t ++ [(o, n)]) o = translateOffset t o ∨ translateOffset (t ++ [(o, n)]) o = n := by
  unfold translateOffset
  rw [List.find?_append]
  cases t.find? (fun p => p.1 == o) with
  | none => right; simp
  | some p => left; rfl

/-! ## What it means for two databases to be the same up to offsets -/

/-- Two encoded values denote the same thing: the same inline value, records corresponding by `ρ`, or
separately stored values of the same kind with the same contents. -/
def SameVal (ρ : Word → Word) (S R : ADb) (e e' : Word) : Prop :=
  (isPtr e = false ∧ e' = e) ∨ (S.recs e ≠ none ∧ e' = ρ e) ∨
  (∃ d o n, d.Supported ∧ o &&& 7#64 = 0#64 ∧ n &&& 7#64 = 0#64 ∧
    S.vals o = some d ∧ R.vals n = some d ∧ e = tagOf d o ∧ e' = tagOf d n)

/-- Field by field correspondence. -/
def SameFields (ρ : Word → Word) (S R : ADb) (fs fs' : List Word) : Prop :=
  fs'.length = fs.length ∧
  ∀ (i : Nat) (e e' : Word), fs[i]? = some e → fs'[i]? = some e' → SameVal ρ S R e e'

/-- `ρ` is a one-to-one correspondence between the records of `S` and those of `R`, preserving metadata,
number of fields and the meaning of every field. -/
structure SameDb (ρ : Word → Word) (S R : ADb) : Prop where
  recs : ∀ o fs, S.recs o = some fs → ∃ fs', R.recs (ρ o) = some fs' ∧ SameFields ρ S R fs fs' ∧
    R.metad (ρ o) = S.metad o
  inj : ∀ o o', S.recs o ≠ none → S.recs o' ≠ none → ρ o = ρ o' → o = o'
  surj : ∀ n, R.recs n ≠ none → ∃ o, S.recs o ≠ none ∧ ρ o = n

/-- A well-formed initial database: records and values at distinct aligned offsets, valid fields. -/
structure ADb.WF (db : ADb) : Prop where
  record : ∀ o, db.recs o ≠ none → o ≠ 0#64 ∧ o &&& 7#64 = 0#64 ∧ db.vals o = none
  val : ∀ o d, db.vals o = some d → d.Supported ∧ o &&& 7#64 = 0#64
  fields : ∀ o fs, db.recs o = some fs → ∀ e ∈ fs, ValidEnc db e

/-- A session in which no offset of a deleted object is used again: `K` are the offsets used so far. -/
inductive NoReuse : (Word → Prop) → ADb → List Entry → ADb → Prop
  | nil (K db) : NoReuse K db [] db
  | cons {K db e db' es db''} : SStep db e db' →
      (∀ o, e.newOff = some o → ¬ K o ∨ db.vals o ≠ none) →
      NoReuse (fun x => K x ∨ e.newOff = some x) db' es db'' → NoReuse K db (e :: es) db''

/-- Invariant of the replay. -/
structure RInv (K : Word → Prop) (S R : ADb) (t : Tbl) : Prop where
  keys : ∀ p ∈ t, K p.1
  recK : ∀ o, S.recs o ≠ none → K o
  valK : ∀ o, S.vals o ≠ none → K o
  wfS : S.WF
  recR : ∀ n, R.recs n ≠ none → n ≠ 0#64 ∧ n &&& 7#64 = 0#64 ∧ R.vals n = none
  valR : ∀ n d, R.vals n = some d → n &&& 7#64 = 0#64
  val : ∀ o d, S.vals o = some d → R.vals (translateOffset t o) = some d
  same : SameDb (translateOffset t) S R

theorem SameVal.mono {ρ ρ' : Word → Word} {S R S' R' : ADb} {e e' : Word} (h : SameVal ρ S R e e')
    (hr : S.recs e ≠ none → S'.recs e ≠ none ∧ ρ' e = ρ e)
    (hS : ∀ o d, S.vals o = some d → S'.vals o = some d)
    (hR : ∀ o d, R.vals o = some d → R'.vals o = some d) : SameVal ρ' S' R' e e' := by
  rcases h with h | ⟨h1, h2⟩ | ⟨d, o, n, h1, h2, h3, h4, h5, h6, h7⟩
  · exact Or.inl h
  · exact Or.inr (Or.inl ⟨(hr h1).1, by rw [(hr h1).2]; exact h2⟩)
  · exact Or.inr (Or.inr ⟨d, o, n, h1, h2, h3, hS _ _ h4, hR _ _ h5, h6, h7⟩)

theorem ValidEnc.same {K : Word → Prop} {S R : ADb} {t : Tbl} (hI : RInv K S R t) {e : Word} (h : ValidEnc S e) :
    SameVal (translateOffset t) S R e (translateEncoded t e) := by
  rcases h with h | h | ⟨d, o, h1, h2, h3, h4, rfl⟩
  · refine Or.inl ⟨h, ?_⟩
    unfold translateEncoded
    rw [if_neg (by simp [h])]
  · have := hI.wfS.record e h
    exact Or.inr (Or.inl ⟨h, translateEncoded_rec t e this.1 this.2.1⟩)
  · exact Or.inr (Or.inr ⟨d, o, translateOffset t o, h1, h3, hI.valR _ _ (hI.val o d h4), h4, hI.val o d h4, rfl,
      translateEncoded_tagOf t d h1 o h3⟩)

theorem upd_same {α : Type} (f : Word → α) (k : Word) (v : α) : upd f k v k = v := by simp [upd]
theorem upd_other {α : Type} (f : Word → α) (k x : Word) (v : α) (h : x ≠ k) : upd f k v x = f x := by simp [upd, h]

theorem ValidEnc.mono {S S' : ADb} {e : Word} (h : ValidEnc S e) (hr : S.recs e ≠ none → S'.recs e ≠ none)
    (hv : ∀ o d, S.vals o = some d → S'.vals o = some d) : ValidEnc S' e := by
  rcases h with h | h | ⟨d, o, h1, h2, h3, h4, h5⟩
  · exact Or.inl h
  · exact Or.inr (Or.inl (hr h))
  · exact Or.inr (Or.inr ⟨d, o, h1, h2, h3, hv _ _ h4, h5⟩)

theorem null_same (ρ : Word → Word) (S R : ADb) : SameVal ρ S R 0#64 0#64 := Or.inl ⟨by decide, rfl⟩

/-- Unreferenced records stay unreferenced in the replayed database. -/
theorem not_referenced {K : Word → Prop} {S R : ADb} {t : Tbl} (hI : RInv K S R t) (off : Word)
    (hlive : S.recs off ≠ none) (h : ¬ Referenced S off) : ¬ Referenced R (translateOffset t off) := by
  rintro ⟨n, fs', hn, hmem⟩
  obtain ⟨o, ho, rfl⟩ := hI.same.surj n (by rw [hn]; simp)
  cases hfs : S.recs o with
  | none => exact absurd hfs ho
  | some fs =>
    obtain ⟨fs'', h1, h2, _⟩ := hI.same.recs o fs hfs
    rw [hn] at h1
    obtain rfl := Option.some.inj h1
    obtain ⟨i, hi, hget⟩ := List.mem_iff_getElem.1 hmem
    have hlt : i < fs.length := by rw [← h2.1]; exact hi
    have hs := h2.2 i fs[i] (translateOffset t off) (List.getElem?_eq_getElem hlt)
      (by rw [List.getElem?_eq_getElem hi, hget])
    obtain ⟨fsoff, hoff, _⟩ : ∃ f, R.recs (translateOffset t off) = some f ∧ True := by
      cases hx : S.recs off with
      | none => exact absurd hx hlive
      | some f => obtain ⟨f', a, _⟩ := hI.same.recs off f hx; exact ⟨f', a, trivial⟩
    have hal := hI.recR (translateOffset t off) (by rw [hoff]; simp)
    rcases hs with ⟨a, b⟩ | ⟨a, b⟩ | ⟨d, x, n, a1, a2, a3, a4, a5, a6, a7⟩
    · rw [← b, aligned_isPtr _ hal.1 hal.2.1] at a; cases a
    · have := hI.same.inj _ _ hlive a b
      exact h ⟨o, fs, hfs, by rw [this]; exact List.getElem_mem hlt⟩
    · exact tagOf_low_ne d a1 n a3 (by rw [← a7]; exact hal.2.1)

/-- One entry: session step and replay step preserve the invariant. -/
theorem step_inv {K : Word → Prop} {S R S' R' : ADb} {t t' : Tbl} {e : Entry} (hI : RInv K S R t)
    (hs : SStep S e S') (hK : ∀ o, e.newOff = some o → ¬ K o ∨ S.vals o ≠ none)
    (hr : RStep (R, t) e (R', t')) : RInv (fun x => K x ∨ e.newOff = some x) S' R' t' := by
  cases hs with
  | cre len o hf =>
    have hKo : ¬ K o := by
      rcases hK o rfl with h | h
      · exact h
      · exact absurd hf.2.2.2 h
    have hnk : ∀ p ∈ t, p.1 ≠ o := fun p hp h => hKo (h ▸ hI.keys p hp)
    cases hr with
    | creFailed _ _ _ n _ => exact absurd rfl hf.1
    | cre _ _ _ _ n h0 hfn =>
      have hro : translateOffset (if n ≠ o then t ++ [(o, n)] else t) o = n := by
        split
        · exact translateOffset_new t o n hnk
        · rename_i h; simp at h; subst h; exact translateOffset_none t n hnk
      have hrx : ∀ x, x ≠ o → translateOffset (if n ≠ o then t ++ [(o, n)] else t) x = translateOffset t x := by
        intro x hx
        split
        · exact translateOffset_append_ne t o n x hx
        · rfl
      have hlive : ∀ x, S.recs x ≠ none → x ≠ o := fun x hx h => hx (h ▸ hf.2.2.1)
      have hvlive : ∀ x, S.vals x ≠ none → x ≠ o := fun x hx h => hx (h ▸ hf.2.2.2)
      have hmono : ∀ x y, SameVal (translateOffset t) S R x y →
          SameVal (translateOffset (if n ≠ o then t ++ [(o, n)] else t)) (S.create o len.toNat) (R.create n len.toNat) x y := by
        intro x y h
        refine h.mono ?_ (fun _ _ h => h) (fun _ _ h => h)
        intro hx
        exact ⟨by simp only [ADb.create, upd]; split <;> simp [hx], hrx x (hlive x hx)⟩
      have hliveR : ∀ x, R.recs x ≠ none → x ≠ n := fun x hx h => hx (h ▸ hfn.2.2.1)
      refine ⟨?_, ?_, ?_, ⟨?_, ?_, ?_⟩, ?_, ?_, ?_, ⟨?_, ?_, ?_⟩⟩
      · intro p hp
        split at hp
        · rcases List.mem_append.1 hp with h | h
          · exact Or.inl (hI.keys p h)
          · simp at h; subst h; exact Or.inr rfl
        · exact Or.inl (hI.keys p hp)
      · intro x hx
        by_cases h : x = o
        · subst h; exact Or.inr rfl
        · simp only [ADb.create, upd, h, if_false] at hx; exact Or.inl (hI.recK x hx)
      · intro x hx; exact Or.inl (hI.valK x hx)
      · intro x hx
        by_cases h : x = o
        · subst h; exact ⟨hf.1, hf.2.1, hf.2.2.2⟩
        · simp only [ADb.create, upd, h, if_false] at hx; exact hI.wfS.record x hx
      · exact hI.wfS.val
      · intro x fs hx z hz
        have hz' : ValidEnc S z := by
          by_cases h : x = o
          · subst h
            simp only [ADb.create, upd_same, Option.some.injEq] at hx
            rw [← hx] at hz
            have := List.eq_of_mem_replicate hz
            subst this; exact Or.inl (by decide)
          · simp only [ADb.create, upd, h, if_false] at hx
            exact hI.wfS.fields x fs hx z hz
        refine hz'.mono ?_ (fun _ _ h => h)
        intro h; simp only [ADb.create, upd]; split <;> simp [h]
      · intro x hx
        by_cases h : x = n
        · subst h; exact ⟨hfn.1, hfn.2.1, hfn.2.2.2⟩
        · simp only [ADb.create, upd, h, if_false] at hx; exact hI.recR x hx
      · exact hI.valR
      · intro x d hx
        rw [hrx x (hvlive x (by intro h; simp only [ADb.create, h] at hx; cases hx))]
        exact hI.val x d hx
      · intro x fs hx
        by_cases h : x = o
        · subst h
          simp only [ADb.create, upd_same, Option.some.injEq] at hx
          rw [hro]
          refine ⟨fs, by simp only [ADb.create, upd_same]; rw [hx], ⟨rfl, ?_⟩, by simp only [ADb.create, upd_same]⟩
          intro i e e' he he'
          rw [he] at he'
          obtain rfl := Option.some.inj he'
          have : e = 0#64 := by
            rw [← hx] at he
            exact List.eq_of_mem_replicate (List.mem_of_getElem? he)
          subst this
          exact null_same _ _ _
        · simp only [ADb.create, upd, h, if_false] at hx
          obtain ⟨fs', h1, h2, h3⟩ := hI.same.recs x fs hx
          have hxn := hliveR (translateOffset t x) (by rw [h1]; simp)
          refine ⟨fs', ?_, ⟨h2.1, fun i e e' he he' => hmono _ _ (h2.2 i e e' he he')⟩, ?_⟩
          · rw [hrx x h]; simp only [ADb.create, upd, hxn, if_false]; exact h1
          · rw [hrx x h]; simp only [ADb.create, upd, hxn, h, if_false]; exact h3
      · intro x y hx hy hxy
        by_cases h : x = o
        · by_cases h' : y = o
          · rw [h, h']
          · simp only [ADb.create, upd, h', if_false] at hy
            subst h
            rw [hro, hrx y h'] at hxy
            cases hfy : S.recs y with
            | none => exact absurd hfy hy
            | some f =>
              obtain ⟨f', a, _⟩ := hI.same.recs y f hfy
              rw [← hxy, hfn.2.2.1] at a; cases a
        · simp only [ADb.create, upd, h, if_false] at hx
          by_cases h' : y = o
          · subst h'
            rw [hro, hrx x h] at hxy
            cases hfx : S.recs x with
            | none => exact absurd hfx hx
            | some f =>
              obtain ⟨f', a, _⟩ := hI.same.recs x f hfx
              rw [hxy, hfn.2.2.1] at a; cases a
          · simp only [ADb.create, upd, h', if_false] at hy
            rw [hrx x h, hrx y h'] at hxy
            exact hI.same.inj x y hx hy hxy
      · intro m hm
        by_cases h : m = n
        · subst h
          exact ⟨o, by simp [ADb.create, upd_same], hro⟩
        · simp only [ADb.create, upd, h, if_false] at hm
          obtain ⟨x, hx, hxm⟩ := hI.same.surj m hm
          have hxo := hlive x hx
          exact ⟨x, by simp only [ADb.create, upd, hxo, if_false]; exact hx, by rw [hrx x hxo]; exact hxm⟩
  | del off fs hfs hnr =>
    have hK' : (fun x => K x ∨ (Entry.del off).newOff = some x) = K := by
      funext x; simp [Entry.newOff]
    rw [hK']
    have hlive : S.recs off ≠ none := by rw [hfs]; simp
    have hnrR := not_referenced hI off hlive hnr
    cases hr with
    | delRefused _ _ _ fs' h1 h2 => exact absurd h2 hnrR
    | del _ _ _ fs' h1 h2 =>
      have hS' : ∀ x, (upd S.recs off none) x ≠ none → x ≠ off ∧ S.recs x ≠ none := by
        intro x hx
        by_cases h : x = off
        · subst h; rw [upd_same] at hx; exact absurd rfl hx
        · rw [upd_other _ _ _ _ h] at hx; exact ⟨h, hx⟩
      have hR' : ∀ x, (upd R.recs (translateOffset t off) none) x ≠ none → x ≠ translateOffset t off ∧ R.recs x ≠ none := by
        intro x hx
        by_cases h : x = translateOffset t off
        · subst h; rw [upd_same] at hx; exact absurd rfl hx
        · rw [upd_other _ _ _ _ h] at hx; exact ⟨h, hx⟩
      have hne : ∀ x, S.recs x ≠ none → x ≠ off → translateOffset t x ≠ translateOffset t off :=
        fun x hx h h' => h (hI.same.inj x off hx hlive h')
      refine ⟨hI.keys, fun x hx => hI.recK x (hS' x hx).2, hI.valK, ⟨fun x hx => hI.wfS.record x (hS' x hx).2, hI.wfS.val, ?_⟩,
        fun x hx => hI.recR x (hR' x hx).2, hI.valR, hI.val, ⟨?_, ?_, ?_⟩⟩
      · intro x gs hx z hz
        have hxo : x ≠ off := (hS' x (by simp only at hx; rw [hx]; simp)).1
        simp only [upd_other _ _ _ _ hxo] at hx
        refine (hI.wfS.fields x gs hx z hz).mono ?_ (fun _ _ h => h)
        intro h
        have : z ≠ off := by
          rintro rfl; exact hnr ⟨x, gs, hx, hz⟩
        simp only [upd_other _ _ _ _ this]; exact h
      · intro x gs hx
        have hxo : x ≠ off := (hS' x (by simp only at hx; rw [hx]; simp)).1
        simp only [upd_other _ _ _ _ hxo] at hx
        obtain ⟨gs', a, b, c⟩ := hI.same.recs x gs hx
        refine ⟨gs', ?_, ⟨b.1, fun i e e' he he' => ?_⟩, c⟩
        · simp only; rw [upd_other _ _ _ _ (hne x (by rw [hx]; simp) hxo)]; exact a
        · refine (b.2 i e e' he he').mono ?_ (fun _ _ h => h) (fun _ _ h => h)
          intro h
          have : e ≠ off := by
            rintro rfl; exact hnr ⟨x, gs, hx, List.mem_of_getElem? he⟩
          exact ⟨by simp only [upd_other _ _ _ _ this]; exact h, rfl⟩
      · intro x y hx hy hxy
        exact hI.same.inj x y (hS' x hx).2 (hS' y hy).2 hxy
      · intro n hn
        obtain ⟨x, hx, rfl⟩ := hI.same.surj n (hR' n hn).2
        have hxo : x ≠ off := by rintro rfl; exact (hR' _ hn).1 rfl
        exact ⟨x, by simp only [upd_other _ _ _ _ hxo]; exact hx, rfl⟩
  | enc d o _ hd henc =>
    have ho : o ≠ 0#64 ∧ o &&& 7#64 = 0#64 ∧ S.recs o = none := by
      rcases henc with ⟨h, _⟩ | ⟨h1, h2, h3, _⟩
      · exact ⟨h.1, h.2.1, h.2.2.1⟩
      · refine ⟨h1, h2, ?_⟩
        cases hx : S.recs o with
        | none => rfl
        | some f => have := (hI.wfS.record o (by rw [hx]; simp)).2.2; rw [this] at h3; cases h3
    have hnew : (Entry.enc d (tagOf d o)).newOff = some o := newOff_tagOf d hd o ho.2.1
    have hKfun : (fun x => K x ∨ (Entry.enc d (tagOf d o)).newOff = some x) = (fun x => K x ∨ x = o) := by
      funext x; rw [hnew]; simp only [Option.some.injEq, eq_comm]
    rw [hKfun]
    rw [hnew] at hK
    have hS' : S'.recs = S.recs ∧ S'.metad = S.metad ∧ S'.vals o = some d ∧
        (∀ x, x ≠ o → S'.vals x = S.vals x) ∧ (∀ x d, S.vals x = some d → S'.vals x = some d) := by
      rcases henc with ⟨h, rfl⟩ | ⟨h1, h2, h3, rfl⟩
      · refine ⟨rfl, rfl, upd_same _ _ _, fun x hx => upd_other _ _ _ _ hx, fun x d' hx => ?_⟩
        have : x ≠ o := by rintro rfl; rw [h.2.2.2] at hx; cases hx
        exact (upd_other _ _ _ _ this).trans hx
      · exact ⟨rfl, rfl, h3, fun _ _ => rfl, fun _ _ h => h⟩
    cases hr with
    | enc _ _ _ _ n _ _ hencR hill =>
      have hn : n &&& 7#64 = 0#64 ∧ R.recs n = none := by
        rcases hencR with ⟨h, _⟩ | ⟨h1, h2, h3, _⟩
        · exact ⟨h.2.1, h.2.2.1⟩
        · refine ⟨h2, ?_⟩
          cases hx : R.recs n with
          | none => rfl
          | some f => have := (hI.recR n (by rw [hx]; simp)).2.2; rw [this] at h3; cases h3
      have hR' : R'.recs = R.recs ∧ R'.metad = R.metad ∧ R'.vals n = some d ∧
          (∀ x, x ≠ n → R'.vals x = R.vals x) ∧ (∀ x d, R.vals x = some d → R'.vals x = some d) := by
        rcases hencR with ⟨h, rfl⟩ | ⟨h1, h2, h3, rfl⟩
        · refine ⟨rfl, rfl, upd_same _ _ _, fun x hx => upd_other _ _ _ _ hx, fun x d' hx => ?_⟩
          have : x ≠ n := by rintro rfl; rw [h.2.2.2] at hx; cases hx
          exact (upd_other _ _ _ _ this).trans hx
        · exact ⟨rfl, rfl, h3, fun _ _ => rfl, fun _ _ h => h⟩
      -- the new table
      have ht : ∃ t', t' = (if tagOf d n ≠ tagOf d o then addTranEnc t (tagOf d o) (tagOf d n) else t) ∧
          (∀ x, x ≠ o → translateOffset t' x = translateOffset t x) ∧
          (R'.vals (translateOffset t' o) = some d) ∧ (∀ p ∈ t', K p.1 ∨ p.1 = o) := by
        refine ⟨_, rfl, ?_, ?_, ?_⟩
        · intro x hx
          split
          · rw [addTranEnc_tagOf t d hd o n ho.2.1 hn.1]; exact translateOffset_append_ne t o n x hx
          · rfl
        · have hold : S.vals o = some d → R'.vals (translateOffset t o) = some d :=
            fun h => hR'.2.2.2.2 _ _ (hI.val o d h)
          have hcase : S.vals o = some d ∨ (∀ p ∈ t, p.1 ≠ o) := by
            rcases henc with ⟨h, _⟩ | ⟨_, _, h3, _⟩
            · right
              rcases hK o rfl with hk | hk
              · exact fun p hp hpo => hk (hpo ▸ hI.keys p hp)
              · exact absurd h.2.2.2 hk
            · exact Or.inl h3
          split
          · rw [addTranEnc_tagOf t d hd o n ho.2.1 hn.1]
            rcases hcase with h | h
            · rcases translateOffset_append_same t o n with hh | hh
              · rw [hh]; exact hold h
              · rw [hh]; exact hR'.2.2.1
            · rw [translateOffset_new t o n h]; exact hR'.2.2.1
          · rename_i heq
            simp only [ne_eq, Decidable.not_not] at heq
            have : n = o := tagOf_inj d hd o n ho.2.1 hn.1 heq
            subst this
            rcases hcase with h | h
            · exact hold h
            · rw [translateOffset_none t n h]; exact hR'.2.2.1
        · intro p hp
          split at hp
          · rw [addTranEnc_tagOf t d hd o n ho.2.1 hn.1] at hp
            rcases List.mem_append.1 hp with h | h
            · exact Or.inl (hI.keys p h)
            · simp at h; subst h; exact Or.inr rfl
          · exact Or.inl (hI.keys p hp)
      obtain ⟨t', ht', hx1, hx2, hx3⟩ := ht
      rw [← ht']
      have hne : ∀ x, S.recs x ≠ none → x ≠ o := by rintro x hx rfl; exact hx ho.2.2
      have hmono : ∀ x y, SameVal (translateOffset t) S R x y → SameVal (translateOffset t') S' R' x y := by
        intro x y h
        refine h.mono ?_ hS'.2.2.2.2 hR'.2.2.2.2
        intro hx
        exact ⟨by rw [hS'.1]; exact hx, hx1 x (hne x hx)⟩
      refine ⟨hx3, ?_, ?_, ⟨?_, ?_, ?_⟩, ?_, ?_, ?_, ⟨?_, ?_, ?_⟩⟩
      · intro x hx; rw [hS'.1] at hx; exact Or.inl (hI.recK x hx)
      · intro x hx
        by_cases h : x = o
        · exact Or.inr h
        · rw [hS'.2.2.2.1 x h] at hx; exact Or.inl (hI.valK x hx)
      · intro x hx
        rw [hS'.1] at hx
        have := hI.wfS.record x hx
        exact ⟨this.1, this.2.1, by rw [hS'.2.2.2.1 x (hne x hx)]; exact this.2.2⟩
      · intro x d' hx
        by_cases h : x = o
        · subst h
          rw [hS'.2.2.1] at hx
          obtain rfl := Option.some.inj hx
          exact ⟨hd, ho.2.1⟩
        · rw [hS'.2.2.2.1 x h] at hx; exact hI.wfS.val x d' hx
      · intro x fs hx z hz
        rw [hS'.1] at hx
        exact (hI.wfS.fields x fs hx z hz).mono (by rw [hS'.1]; exact id) hS'.2.2.2.2
      · intro x hx
        rw [hR'.1] at hx
        have h := hI.recR x hx
        have hxn : x ≠ n := by rintro rfl; exact hx hn.2
        exact ⟨h.1, h.2.1, by rw [hR'.2.2.2.1 x hxn]; exact h.2.2⟩
      · intro x d' hx
        by_cases h : x = n
        · subst h; exact hn.1
        · rw [hR'.2.2.2.1 x h] at hx; exact hI.valR x d' hx
      · intro x d' hx
        by_cases h : x = o
        · subst h
          rw [hS'.2.2.1] at hx
          obtain rfl := Option.some.inj hx
          exact hx2
        · rw [hS'.2.2.2.1 x h] at hx
          rw [hx1 x h]
          exact hR'.2.2.2.2 _ _ (hI.val x d' hx)
      · intro x fs hx
        rw [hS'.1] at hx
        obtain ⟨fs', a, b, c⟩ := hI.same.recs x fs hx
        have hxo := hne x (by rw [hx]; simp)
        refine ⟨fs', by rw [hx1 x hxo, hR'.1]; exact a, ⟨b.1, fun i e e' he he' => hmono _ _ (b.2 i e e' he he')⟩, ?_⟩
        rw [hx1 x hxo, hR'.2.1, hS'.2.1]; exact c
      · intro x y hx hy hxy
        rw [hS'.1] at hx hy
        rw [hx1 x (hne x hx), hx1 y (hne y hy)] at hxy
        exact hI.same.inj x y hx hy hxy
      · intro m hm
        rw [hR'.1] at hm
        obtain ⟨x, hx, rfl⟩ := hI.same.surj m hm
        exact ⟨x, by rw [hS'.1]; exact hx, hx1 x (hne x hx)⟩
  | set off col e fs hfs hcol hval =>
    have hK' : (fun x => K x ∨ (Entry.set off col e).newOff = some x) = K := by
      funext x; simp [Entry.newOff]
    rw [hK']
    have hlive : S.recs off ≠ none := by rw [hfs]; simp
    have hSv := hval.same hI
    cases hr with
    | set _ _ _ _ _ fs' hfs' hcol' =>
      obtain ⟨fs'', a0, b0, c0⟩ := hI.same.recs off fs hfs
      rw [hfs'] at a0
      obtain rfl := Option.some.inj a0
      have hS' : ∀ x, (upd S.recs off (some (fs.set col.toNat e))) x ≠ none ↔ S.recs x ≠ none := by
        intro x
        by_cases h : x = off
        · subst h; rw [upd_same]; simp [hlive]
        · rw [upd_other _ _ _ _ h]
      have hR' : ∀ x, (upd R.recs (translateOffset t off) (some (fs'.set col.toNat (translateEncoded t e)))) x ≠ none ↔ R.recs x ≠ none := by
        intro x
        by_cases h : x = translateOffset t off
        · subst h; rw [upd_same]; simp [hfs']
        · rw [upd_other _ _ _ _ h]
      have hmono : ∀ x y, SameVal (translateOffset t) S R x y →
          SameVal (translateOffset t) { S with recs := upd S.recs off (some (fs.set col.toNat e)) }
            { R with recs := upd R.recs (translateOffset t off) (some (fs'.set col.toNat (translateEncoded t e))) } x y := by
        intro x y h
        exact h.mono (fun hx => ⟨(hS' x).2 hx, rfl⟩) (fun _ _ h => h) (fun _ _ h => h)
      refine ⟨hI.keys, fun x hx => hI.recK x ((hS' x).1 hx), hI.valK,
        ⟨fun x hx => hI.wfS.record x ((hS' x).1 hx), hI.wfS.val, ?_⟩,
        fun x hx => hI.recR x ((hR' x).1 hx), hI.valR, hI.val, ⟨?_, ?_, ?_⟩⟩
      · intro x gs hx z hz
        have hz' : ValidEnc S z := by
          by_cases h : x = off
          · subst h
            simp only [upd_same, Option.some.injEq] at hx
            rw [← hx] at hz
            rcases List.mem_or_eq_of_mem_set hz with h | h
            · exact hI.wfS.fields x fs hfs z h
            · rw [h]; exact hval
          · simp only [upd_other _ _ _ _ h] at hx
            exact hI.wfS.fields x gs hx z hz
        exact hz'.mono (fun h => (hS' z).2 h) (fun _ _ h => h)
      · intro x gs hx
        by_cases h : x = off
        · subst h
          simp only [upd_same, Option.some.injEq] at hx
          subst hx
          refine ⟨_, by simp only; rw [upd_same], ⟨by simp [b0.1], ?_⟩, c0⟩
          intro i z z' hz hz'
          apply hmono
          by_cases hi : col.toNat = i
          · subst hi
            rw [List.getElem?_set_self hcol] at hz
            rw [List.getElem?_set_self hcol'] at hz'
            obtain rfl := Option.some.inj hz
            obtain rfl := Option.some.inj hz'
            exact hSv
          · rw [List.getElem?_set_ne hi] at hz hz'
            exact b0.2 i z z' hz hz'
        · simp only [upd_other _ _ _ _ h] at hx
          obtain ⟨gs', a, b, c⟩ := hI.same.recs x gs hx
          have hne : translateOffset t x ≠ translateOffset t off :=
            fun h' => h (hI.same.inj x off (by rw [hx]; simp) hlive h')
          refine ⟨gs', by simp only; rw [upd_other _ _ _ _ hne]; exact a,
            ⟨b.1, fun i e e' he he' => hmono _ _ (b.2 i e e' he he')⟩, c⟩
      · intro x y hx hy hxy
        exact hI.same.inj x y ((hS' x).1 hx) ((hS' y).1 hy) hxy
      · intro n hn
        obtain ⟨x, hx, h⟩ := hI.same.surj n ((hR' n).1 hn)
        exact ⟨x, (hS' x).2 hx, h⟩
  | setMeta off m fs hfs =>
    have hK' : (fun x => K x ∨ (Entry.setMeta off m).newOff = some x) = K := by
      funext x; simp [Entry.newOff]
    rw [hK']
    have hlive : S.recs off ≠ none := by rw [hfs]; simp
    cases hr with
    | setMeta _ _ _ _ fs' hfs' =>
      have hmono : ∀ x y, SameVal (translateOffset t) S R x y →
          SameVal (translateOffset t) { S with metad := upd S.metad off m }
            { R with metad := upd R.metad (translateOffset t off) m } x y :=
        fun x y h => h.mono (fun hx => ⟨hx, rfl⟩) (fun _ _ h => h) (fun _ _ h => h)
      refine ⟨hI.keys, hI.recK, hI.valK, ⟨hI.wfS.record, hI.wfS.val, ?_⟩, hI.recR, hI.valR, hI.val, ⟨?_, hI.same.inj, hI.same.surj⟩⟩
      · intro x gs hx z hz
        exact (hI.wfS.fields x gs hx z hz).mono id (fun _ _ h => h)
      · intro x gs hx
        obtain ⟨gs', a, b, c⟩ := hI.same.recs x gs hx
        refine ⟨gs', a, ⟨b.1, fun i e e' he he' => hmono _ _ (b.2 i e e' he he')⟩, ?_⟩
        by_cases h : x = off
        · subst h; simp only [upd_same]
        · have hne : translateOffset t x ≠ translateOffset t off :=
            fun h' => h (hI.same.inj x off (by rw [hx]; simp) hlive h')
          simp only [upd_other _ _ _ _ h, upd_other _ _ _ _ hne]; exact c

theorem run_inv {K : Word → Prop} {S S' : ADb} {es : List Entry} (hs : NoReuse K S es S') :
    ∀ {R R' : ADb} {t t' : Tbl}, RInv K S R t → RRun (R, t) es (R', t') → ∃ K', RInv K' S' R' t' := by
  induction hs with
  | nil K db => intro R R' t t' hI hr; cases hr; exact ⟨_, hI⟩
  | cons h1 h2 _ ih =>
    intro R R' t t' hI hr
    cases hr with
    | cons r1 r2 =>
      rename_i s'
      obtain ⟨Rm, tm⟩ := s'
      exact ih (step_inv hI h1 h2 r1) r2

/-- The initial invariant: replay starts from the same database with an empty table. -/
theorem init_inv (K : Word → Prop) (S : ADb) (hw : S.WF) (hK : ∀ o, S.recs o ≠ none ∨ S.vals o ≠ none → K o) :
    RInv K S S [] := by
  have hid : ∀ o, translateOffset [] o = o := fun o => rfl
  refine ⟨by simp, fun o h => hK o (Or.inl h), fun o h => hK o (Or.inr h), hw, hw.record,
    fun n d h => (hw.val n d h).2, fun o d h => h, ⟨?_, fun o o' _ _ h => h, fun n h => ⟨n, h, rfl⟩⟩⟩
  intro o fs hfs
  refine ⟨fs, hfs, ⟨rfl, ?_⟩, rfl⟩
  intro i e e' he he'
  rw [he] at he'
  obtain rfl := Option.some.inj he'
  rcases hw.fields o fs hfs e (List.mem_of_getElem? he) with h | h | ⟨d, x, h1, h2, h3, h4, h5⟩
  · exact Or.inl ⟨h, rfl⟩
  · exact Or.inr (Or.inl ⟨h, rfl⟩)
  · exact Or.inr (Or.inr ⟨d, x, x, h1, h3, h3, h4, h4, h5, h5⟩)

/-- C40, without reuse of offsets: whatever free offsets the allocator returns during replay, the replayed
database is the same as the one the session left, up to a renaming of record offsets. -/
theorem C40_replay_partial (K : Word → Prop) (db0 S R : ADb) (es : List Entry) (t : Tbl)
    (hw : db0.WF) (hK : ∀ o, db0.recs o ≠ none ∨ db0.vals o ≠ none → K o)
    (hs : NoReuse K db0 es S) (hr : RRun (db0, []) es (R, t)) : ∃ ρ, SameDb ρ S R := by
  obtain ⟨K', hI⟩ := run_inv hs (init_inv K db0 hw hK) hr
  exact ⟨_, hI.same⟩

/-- C40: replay never fails: each next entry can be executed if the allocator has a free offset. -/
theorem C40_progress_partial (K : Word → Prop) (db0 S S' R : ADb) (es : List Entry) (e : Entry) (t : Tbl)
    (hw : db0.WF) (hK : ∀ o, db0.recs o ≠ none ∨ db0.vals o ≠ none → K o)
    (hs : NoReuse K db0 es S) (hr : RRun (db0, []) es (R, t)) (he : SStep S e S')
    (n : Word) (hn : FreshOff R n) : ∃ s, RStep (R, t) e s := by
  obtain ⟨K', hI⟩ := run_inv hs (init_inv K db0 hw hK) hr
  cases he with
  | cre len o hf => exact ⟨_, .cre R t len o n hf.1 hn⟩
  | del off fs h1 h2 =>
    obtain ⟨fs', a, _⟩ := hI.same.recs off fs h1
    exact ⟨_, .del R t off fs' a (not_referenced hI off (by rw [h1]; simp) h2)⟩
  | enc d o _ hd henc =>
    have ho : o &&& 7#64 = 0#64 := by
      rcases henc with ⟨h, _⟩ | ⟨_, h, _⟩
      · exact h.2.1
      · exact h
    exact ⟨_, .enc R t d _ n _ hd (Or.inl ⟨hn, rfl⟩) (tagOf_illegal d hd o ho)⟩
  | set off col e fs h1 h2 h3 =>
    obtain ⟨fs', a, b, _⟩ := hI.same.recs off fs h1
    exact ⟨_, .set R t off col e fs' a (by rw [b.1]; exact h2)⟩
  | setMeta off m fs h1 =>
    obtain ⟨fs', a, _⟩ := hI.same.recs off fs h1
    exact ⟨_, .setMeta R t off m fs' a⟩

/-! ### Hypotheses are met, and what goes wrong with reuse -/

/-- The empty database. -/
def emptyADb : ADb := ⟨fun _ => none, fun _ => 0#64, fun _ => none⟩

theorem emptyADb_wf : emptyADb.WF :=
  ⟨fun _ h => absurd rfl h, fun _ _ h => by simp [emptyADb] at h, fun _ _ h => by simp [emptyADb] at h⟩

/-- A session that creates a record, stores a double and sets the field, and a replay that uses other
offsets, meet the hypotheses of C40. -/
example : ∃ S R t, NoReuse (fun _ => False) emptyADb
      [.cre 1#64 8#64, .enc (.double 5#64) (tagOf (.double 5#64) 16#64), .set 8#64 0#64 (tagOf (.double 5#64) 16#64)] S ∧
    RRun (emptyADb, [])
      [.cre 1#64 8#64, .enc (.double 5#64) (tagOf (.double 5#64) 16#64), .set 8#64 0#64 (tagOf (.double 5#64) 16#64)]
      (R, t) ∧ R.recs 32#64 = some [tagOf (.double 5#64) 64#64] ∧ R.recs 8#64 = none := by
  refine ⟨_, _, _, .cons (.cre _ _ _ ?_) ?_ (.cons (.enc _ _ _ _ trivial (Or.inl ⟨?_, rfl⟩)) ?_
      (.cons (.set _ _ _ _ [0#64] ?_ (by decide) ?_) ?_ (.nil _ _))),
    .cons (.cre _ _ _ _ 32#64 (by decide) ?_) (.cons (.enc _ _ _ _ 64#64 _ trivial (Or.inl ⟨?_, rfl⟩) (by decide))
      (.cons (.set _ _ _ _ _ [0#64] ?_ (by decide)) (.nil _))), ?_, ?_⟩
  · exact ⟨by decide, by decide, rfl, rfl⟩
  · intro o ho; left; simp
  · exact ⟨by decide, by decide, rfl, rfl⟩
  · intro o ho; left; simp [Entry.newOff, decodeFulldouble, tagOf, encodeFulldouble] at ho ⊢; rw [← ho]; decide
  · rfl
  · exact Or.inr (Or.inr ⟨.double 5#64, 16#64, trivial, by decide, by decide, rfl, rfl⟩)
  · intro o ho; cases ho
  · exact ⟨by decide, by decide, rfl, rfl⟩
  · exact ⟨by decide, by decide, rfl, rfl⟩
  · rfl
  · rfl
  · rfl

/-- Missing from C40: after a deleted record's offset is reused in the session, the stale translation sends
later operations to a wrong record or none at all.  Session: create a record at 8, delete it, create another
one at 8, set its field to 1 (encoded 11).  Replay (the allocator returns 32, then 64): the last operation
finds no record. -/
theorem C40_reuse_counterexample :
    let es := [Entry.cre 1#64 8#64, .del 8#64, .cre 1#64 8#64]
    (∃ S, SRun emptyADb es S ∧ ∃ S', SStep S (.set 8#64 0#64 11#64) S') ∧
    (∃ R t, RRun (emptyADb, []) es (R, t) ∧ ¬ ∃ s, RStep (R, t) (.set 8#64 0#64 11#64) s) := by
  have nr : ∀ (f : Word → Option (List Word)) (off : Word), off ≠ 0#64 → (∀ o fs, f o = some fs → ∀ e ∈ fs, e = 0#64) →
      ∀ db : ADb, db.recs = f → ¬ Referenced db off := by
    rintro f off h0 h db rfl ⟨o, fs, h1, h2⟩
    exact h0 (h o fs h1 _ h2)
  refine ⟨⟨_, .cons (.cre _ _ _ ⟨by decide, by decide, rfl, rfl⟩) (.cons (.del _ _ [0#64] rfl ?_)
      (.cons (.cre _ _ _ ⟨by decide, by decide, rfl, rfl⟩) (.nil _))), _, .set _ _ _ _ [0#64] rfl (by decide) (Or.inl (by decide))⟩,
    _, _, .cons (.cre _ _ _ _ 32#64 (by decide) ⟨by decide, by decide, rfl, rfl⟩) (.cons (.del _ _ _ [0#64] rfl ?_)
      (.cons (.cre _ _ _ _ 64#64 (by decide) ⟨by decide, by decide, rfl, rfl⟩) (.nil _))), ?_⟩
  · refine nr _ _ (by decide) ?_ _ rfl
    intro o fs h e he
    simp only [ADb.create, upd, emptyADb] at h
    split at h
    · obtain rfl := Option.some.inj h; simpa using he
    · cases h
  · refine nr _ _ (by decide) ?_ _ rfl
    intro o fs h e he
    simp only [ADb.create, upd, emptyADb] at h
    split at h
    · obtain rfl := Option.some.inj h; simpa using he
    · cases h
  · rintro ⟨s, h⟩
    cases h with
    | set _ _ _ _ _ fs h1 _ => exact absurd h1 (fun h => by cases h)

/-- Missing from C40: a record whose creation failed in the session is created by the replay. -/
theorem C40_failed_create_counterexample :
    ∃ R t, RRun (emptyADb, []) [.cre 1#64 0#64] (R, t) ∧ R.recs 8#64 = some [0#64] :=
  ⟨_, _, .cons (.creFailed _ _ _ 8#64 ⟨by decide, by decide, rfl, rfl⟩) (.nil _), rfl⟩

end WG
