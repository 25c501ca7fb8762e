import Verif.IndexMaint.Spec
/-! # Values on the heap are ordered, and a comparison depends only on what it reads -/
namespace WG.Recs

variable {C : Prop} {h h' : Heap}

/-- Two readers agree on a value, apart from record contents. -/
structure RSame (R R' : Reader) (w : Word) : Prop where
  typ : R'.typ w = R.typ w
  int : R'.int w = R.int w
  dbl : R'.dbl w = R.dbl w
  str : R'.str w = R.str w
  lang : R'.lang w = R.lang w
  blob : R.typ w = some .blob → R'.blob w = R.blob w
  blobLen : R.typ w = some .blob → R'.blobLen w = R.blobLen w

theorem RSame.refl (R : Reader) (w : Word) : RSame R R w := ⟨rfl, rfl, rfl, rfl, rfl, fun _ => rfl, fun _ => rfl⟩
theorem RSame.trans {R1 R2 R3 : Reader} {w : Word} (a : RSame R1 R2 w) (b : RSame R2 R3 w) : RSame R1 R3 w :=
  ⟨b.typ.trans a.typ, b.int.trans a.int, b.dbl.trans a.dbl, b.str.trans a.str, b.lang.trans a.lang, fun e => (b.blob (a.typ.trans e)).trans (a.blob e),
    fun e => (b.blobLen (a.typ.trans e)).trans (a.blobLen e)⟩

theorem typ_congr {m m' : Mem} {w : Word} (he : isLongstr w = true → m' (decodeLongstr w + 8#64) &&& 0xff#64 = m (decodeLongstr w + 8#64) &&& 0xff#64) :
    getEncodedType m' w = getEncodedType m w := by
  unfold getEncodedType dbfetch
  by_cases h4 : w &&& 7#64 = 4#64
  · rw [he (by simp [isLongstr, h4])]
  · simp only [h4, if_false]

theorem mem_lstr (h : Heap) (o : Word) : h.mem (o + 8#64) &&& 0xff#64 = ((h.lstrs o).map (·.type)).getD 0#64 := by
  unfold Heap.mem
  rw [BitVec.add_sub_cancel]
  cases h.lstrs o <;> simp [LStr.type]

theorem blob_long {m : Mem} {w : Word} (ht : getEncodedType m w = some .blob) : isLongstr w = true := by
  by_contra hl
  have h4 : ¬ w &&& 7#64 = 4#64 := by simpa [isLongstr] using hl
  unfold getEncodedType at ht
  simp only [h4, if_false] at ht
  repeat' split at ht
  all_goals cases ht

theorem SameValue.rsame {w : Word} (hs : SameValue h h' w) : RSame h.reader h'.reader w := by
  obtain ⟨s1, s2, s3, s4, s5, s6, s7, s8⟩ := hs
  refine ⟨typ_congr fun hl => ?_, ?_, ?_, ?_, ?_, fun hl => ?_, fun hl => ?_⟩
  · rw [mem_lstr, mem_lstr, s8 hl]
  · simp only [Heap.reader, decodeInt, dbfetch]
    split_ifs with a b
    · rfl
    · rw [s7 b]
    · rfl
  · simp only [Heap.reader, decodeDouble, dbfetch]
    split_ifs with a
    · rw [s6 a]
    · rfl
  · simp only [Heap.reader, s1]
  · simp only [Heap.reader, s4]
  all_goals
    replace hl := blob_long hl
    have hsh : isShortstr w = false := by rcases kind_cases w with k | k | k | k | k | k <;> simp_all
    simp only [decodeBytes, hsh, hl, if_true, Bool.false_eq_true, if_false] at s2
    simp only [decodeLen, hsh, hl, if_true, Bool.false_eq_true, if_false] at s3
    simp only [Heap.reader]
    cases e1 : h.lstrs (decodeLongstr w) <;> cases e2 : h'.lstrs (decodeLongstr w) <;> simp [e1, e2] at s2 s3 ⊢
    first | exact s3 | rw [s2, s3]

/-- Good values stay good while they are readable. -/
theorem Good.congr {w : Word} (hg : Good h w) (hs : SameValue h h' w) : Good h' w := by
  obtain ⟨⟨d, hd, rfl⟩, hn⟩ := hg
  refine ⟨⟨d, ?_, rfl⟩, fun hf x hx => hn hf x (by rw [← hs.2.2.2.2.2.1 hf]; exact hx)⟩
  cases d with
  | longstr off t =>
    obtain ⟨a, b, c⟩ := hd
    refine ⟨a, b, ?_⟩
    have hl := lstr_is a
    have hdec := lstr_dec_enc a
    have := hs.2.2.2.2.2.2.2 hl
    simp only [Datum.encode] at this
    rw [hdec] at this
    rw [mem_lstr] at c ⊢
    rw [this]; exact c
  | _ => exact hd

/-- All stored values are good. -/
def AllGood (h : Heap) : Prop := ∀ r rc w, h.recs r = some rc → w ∈ rc.fields → Good h w

theorem cstr_zero {bs s : List Byte} (e : cstr bs = some s) : 0#8 ∉ s := by
  unfold cstr at e
  split_ifs at e
  cases e
  intro hm
  have : ∀ l : List Byte, 0#8 ∉ l.takeWhile (· ≠ 0#8) := by
    intro l
    induction l with
    | nil => simp
    | cons x l ih =>
      rw [List.takeWhile_cons]
      split
      · rename_i hx
        rw [List.mem_cons]
        rintro (h | h)
        · subst h; simp at hx
        · exact ih h
      · simp
  exact this _ hm

theorem lang_zero (h : Heap) (w : Word) : 0#8 ∉ (h.reader.lang w).getD [] := by
  simp only [Heap.reader, decodeLang]
  split_ifs
  · simp
  · cases e : h.lstrs (decodeLongstr w) with
    | none => simp
    | some s =>
      simp only [extraOf]
      split_ifs
      · simp
      · simp only [decodeStr]
        cases e1 : decodeBytes h s.extra with
        | none => simp
        | some bs =>
          cases e2 : cstr bs with
          | none => simp [e2]
          | some x => simpa [e2] using cstr_zero e2
  · simp

/-- The values of a heap without NaN are ordered. `V` is any set of good readable values that contains the fields of its records. -/
theorem ordered (hI : SInv C h (fldF h)) {V : Word → Prop} (hg : ∀ w, V w → Good h w) (hl : ∀ w, V w → LiveS h w)
    (hc : ∀ w rc, V w → h.recs w = some rc → ∀ f ∈ rc.fields, V f) : Ordered h.reader V where
  typ w hw := by
    obtain ⟨⟨d, hd, rfl⟩, _⟩ := hg w hw
    exact ⟨_, C03_type_correct h.mem d hd⟩
  imm := by
    intro a b t hva hvb hta htb ht hp
    obtain ⟨⟨da, va, rfl⟩, _⟩ := hg a hva
    obtain ⟨⟨db, vb, rfl⟩, _⟩ := hg b hvb
    have ea := Option.some.inj ((C03_type_correct h.mem da va).symm.trans hta)
    have eb := Option.some.inj ((C03_type_correct h.mem db vb).symm.trans htb)
    rcases ht with ht | ht
    · have : ∀ d : Datum, d.Valid h.mem → d.type = .null → d = .null := by
        intro d hd h
        cases d <;> simp [Datum.type] at h
        · rfl
        · rename_i off t
          subst h
          rcases hd.2.1 with h1 | h1 | h1 | h1 | h1 <;> cases h1
      rw [this da va (ea.trans ht), this db vb (eb.trans ht)]
    · rw [payload_word ⟨h.mem, 0⟩ da db va vb (ea.trans eb.symm) (by rw [ea]; exact ht) ?_]
      have hta' : (Seg.reader ⟨h.mem, 0⟩).typ da.encode = some t := hta
      have htb' : (Seg.reader ⟨h.mem, 0⟩).typ db.encode = some t := htb
      rcases ht with rfl | rfl | rfl | rfl <;> simp only [payload, hta', htb'] <;> simp only [payload, hta, htb] at hp <;> exact hp
  noNaN w hw ht := by
    obtain ⟨_, hn⟩ := hg w hw
    simp only [Heap.reader, decodeDouble, dbfetch]
    split_ifs with hf
    · cases e : h.dbls (decodeFulldouble w) with
      | none => decide
      | some x => exact hn hf x e
    · decide
  lang w _ := lang_zero h w
  blob w hw ht := by
    simp only [Heap.reader]
    cases e : h.lstrs (decodeLongstr w) with
    | none => rfl
    | some s =>
      simp only [Option.map_some, Option.getD_some, List.length_take]
      rw [Nat.min_eq_left (hI.layout _ s e).facts.1]
  len w _ _ := by
    simp only [Heap.reader]
    cases h.recs w <;> simp
  closed w hw ht f hf := by
    simp only [Heap.reader] at hf
    cases e : h.recs w with
    | none => simp [e] at hf
    | some rc => exact hc w rc hw e f (by simpa [e] using hf)

/-! ### Locality of comparisons -/

/-- Comparing `w` at depth `d` does not look into a record of `D`. -/
def Far (R : Reader) (D : Word → Prop) : Nat → Word → Prop
  | 0, _ => True
  | d + 1, w => R.typ w = some .record → ¬ D w ∧ ∀ f ∈ R.fields w, Far R D d f

theorem compareFields_congr {f g : Word → Word → Int} : ∀ {l l' : List Word}, (∀ a ∈ l, ∀ b ∈ l', f a b = g a b) → compareFields f l l' = compareFields g l l'
  | [], [], _ => rfl
  | [], _ :: _, _ => rfl
  | _ :: _, [], _ => rfl
  | a :: as, b :: bs, h => by
    have ih : compareFields f as bs = compareFields g as bs := compareFields_congr fun x hx y hy => h x (by simp [hx]) y (by simp [hy])
    simp only [compareFields, h a (by simp) b (by simp), ih]

theorem compareStrings_congr {R R' : Reader} {a b : Word} (ha : RSame R R' a) (hb : RSame R R' b) (he : typeCode R b = typeCode R a)
    (h1 : ¬ typeCode R a > 9) (h2 : ¬ typeCode R a < 5) : compareStrings R' (typeCode R a) a b = compareStrings R (typeCode R a) a b := by
  have blob : ∀ w, typeCode R w = 8 → R.typ w = some .blob := by
    intro w hw
    unfold typeCode at hw
    cases e : R.typ w with
    | none => rw [e] at hw; simp at hw
    | some t => rw [e] at hw; cases t <;> simp [WType.code] at hw; rfl
  unfold compareStrings
  rw [ha.str, hb.str, ha.lang, hb.lang]
  by_cases h8 : typeCode R a = 8
  · rw [ha.blob (blob a h8), hb.blob (blob b (he.trans h8)), ha.blobLen (blob a h8), hb.blobLen (blob b (he.trans h8))]
  · split_ifs with h5 h9 h7
    · rfl
    · rfl
    · rfl
    · omega

theorem wgCompare_local {R R' : Reader} {V D : Word → Prop} (hR : ∀ w, V w → RSame R R' w)
    (hrec : ∀ w, V w → ¬ D w → R.typ w = some .record → R'.fields w = R.fields w ∧ R'.len w = R.len w ∧ ∀ f ∈ R.fields w, V f) :
    ∀ (d : Nat) (a b : Word), V a → V b → (R.typ a = some .record → R.typ b = some .record → Far R D d a ∧ Far R D d b) →
    wgCompare R' d a b = wgCompare R d a b := by
  have code : ∀ w, V w → typeCode R' w = typeCode R w := by intro w hw; simp only [typeCode, (hR w hw).typ]
  have rcd : ∀ w, typeCode R w = 2 → R.typ w = some .record := by
    intro w hw
    unfold typeCode at hw
    cases e : R.typ w with
    | none => rw [e] at hw; simp at hw
    | some t => rw [e] at hw; cases t <;> simp [WType.code] at hw; rfl
  intro d
  induction d with
  | zero =>
    intro a b ha hb _
    unfold wgCompare
    simp only [code a ha, code b hb, (hR a ha).int, (hR b hb).int, (hR a ha).dbl, (hR b hb).dbl]
    by_cases he : typeCode R b = typeCode R a
    · simp only [if_pos he]
      by_cases h1 : typeCode R a > 9
      · simp only [if_pos h1]
      · simp only [if_neg h1]
        by_cases h2 : typeCode R a < 5
        · simp only [if_pos h2]
        · simp only [if_neg h2]; exact compareStrings_congr (hR a ha) (hR b hb) he h1 h2
    · simp only [if_neg he]
  | succ d ih =>
    intro a b ha hb ff
    unfold wgCompare
    simp only [code a ha, code b hb, (hR a ha).int, (hR b hb).int, (hR a ha).dbl, (hR b hb).dbl]
    by_cases he : typeCode R b = typeCode R a
    · simp only [if_pos he]
      by_cases h1 : typeCode R a > 9
      · simp only [if_pos h1]
      · simp only [if_neg h1]
        by_cases h2 : typeCode R a < 5
        · simp only [if_pos h2]
          by_cases h3 : typeCode R a = 2
          · simp only [if_pos h3, decodeDatarec]
            have ra := rcd a h3
            have rb := rcd b (he.trans h3)
            obtain ⟨fa, fb⟩ := ff ra rb
            obtain ⟨na, ga⟩ := fa ra
            obtain ⟨nb, gb⟩ := fb rb
            obtain ⟨a1, a2, a3⟩ := hrec a ha na ra
            obtain ⟨b1, b2, b3⟩ := hrec b hb nb rb
            simp only [a1, a2, b1, b2]
            rw [compareFields_congr fun x hx y hy => ih x y (a3 x hx) (b3 y hy) fun _ _ => ⟨ga x hx, gb y hy⟩]
            by_cases hl : R.len a ≠ R.len b
            · exact (if_pos hl).trans (if_pos hl).symm
            · exact (if_neg hl).trans (if_neg hl).symm
          · simp only [if_neg h3]
        · simp only [if_neg h2]; exact compareStrings_congr (hR a ha) (hR b hb) he h1 h2
    · simp only [if_neg he]

theorem compare_local {R R' : Reader} {V D : Word → Prop} (hR : ∀ w, V w → RSame R R' w)
    (hrec : ∀ w, V w → ¬ D w → R.typ w = some .record → R'.fields w = R.fields w ∧ R'.len w = R.len w ∧ ∀ f ∈ R.fields w, V f)
    {a b : Word} (ha : V a) (hb : V b)
    (ff : R.typ a = some .record → R.typ b = some .record → Far R D 7 a ∧ Far R D 7 b) : WG_COMPARE R' a b = WG_COMPARE R a b := by
  unfold WG_COMPARE
  split_ifs
  · rfl
  · exact wgCompare_local hR hrec 7 a b ha hb ff

/-- A field that does not lead to `r` is far from `r`. -/
theorem far_of_leads {r : Word} : ∀ (d : Nat) {p : Word} {c : Nat} {w : Word}, (view h).field p c = some w →
    (∀ A, A.length + 1 ≤ d → ¬ Leads (view h) r ((p, c) :: A)) → Far h.reader (· = r) d w := by
  intro d
  induction d with
  | zero => intros; trivial
  | succ d ih =>
    intro p c w hw hn ht
    refine ⟨fun e => hn [] (by simp) (by rw [Leads, hw, e]), fun f hf => ?_⟩
    simp only [Heap.reader] at hf
    cases e : h.recs w with
    | none => simp [e] at hf
    | some rw' =>
      simp only [e, Option.map_some, Option.getD_some] at hf
      obtain ⟨j, hj⟩ := List.mem_iff_getElem?.1 hf
      refine ih (p := w) (c := j) (by simp [Table.field, view, e, hj]) fun A hA hl => ?_
      exact hn ((w, j) :: A) (by simp; omega) ⟨hw, hl⟩

end WG.Recs
