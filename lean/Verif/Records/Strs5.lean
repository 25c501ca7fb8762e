import Verif.Records.Strs4
import Mathlib.Tactic.IntervalCases
/-! # The string area: encoding -/
namespace WG.Recs

variable {C : Prop} {h h' : Heap} {F F' : Pos → Option Word}

/-- Objects may have been added; nothing else than reference counts and the hash array changed. -/
structure Grown (h h' : Heap) : Prop where
  recs : h'.recs = h.recs
  cells : h'.cells = h.cells
  hlen : h'.hlen = h.hlen
  sstrs : ∀ o b, h.sstrs o = some b → h'.sstrs o = some b
  dbls : ∀ o b, h.dbls o = some b → h'.dbls o = some b
  ints : ∀ o b, h.ints o = some b → h'.ints o = some b
  lstrs : ∀ o s, h.lstrs o = some s → ∃ s', h'.lstrs o = some s' ∧ s'.info = s.info ∧ s'.chain = s.chain ∧ s'.extra = s.extra ∧ s'.data = s.data

theorem Grown.refl (h : Heap) : Grown h h :=
  ⟨rfl, rfl, rfl, fun _ _ e => e, fun _ _ e => e, fun _ _ e => e, fun _ s e => ⟨s, e, rfl, rfl, rfl, rfl⟩⟩

theorem Grown.trans {h1 h2 h3 : Heap} (a : Grown h1 h2) (b : Grown h2 h3) : Grown h1 h3 :=
  ⟨b.recs.trans a.recs, b.cells.trans a.cells, b.hlen.trans a.hlen, fun o x e => b.sstrs o x (a.sstrs o x e),
    fun o x e => b.dbls o x (a.dbls o x e), fun o x e => b.ints o x (a.ints o x e), fun o s e => by
      obtain ⟨s2, e1, e2, e3, e4, e5⟩ := a.lstrs o s e
      obtain ⟨s1, g1, g2, g3, g4, g5⟩ := b.lstrs o s2 e1
      exact ⟨s1, g1, g2.trans e2, g3.trans e3, g4.trans e4, g5.trans e5⟩⟩

theorem RefOnly.grown (r : RefOnly h h') : Grown h h' :=
  ⟨r.recs, r.cells, r.hlen, fun o b e => by rw [r.sstrs]; exact e, fun o b e => by rw [r.dbls]; exact e,
    fun o b e => by rw [r.ints]; exact e, fun o s e => r.get e⟩

theorem Grown.shrunk (r : Grown h h') : Shrunk h' h :=
  ⟨r.recs.symm, r.cells.symm, r.hlen.symm, r.sstrs, r.dbls, r.ints, fun o s e => by
    obtain ⟨s', e1, e2, e3, e4, e5⟩ := r.lstrs o s e
    exact ⟨s', e1, e2.symm, e4.symm, e5.symm⟩⟩

theorem Shrunk.liveS (r : Shrunk h h') {w : Word} (hl : LiveS h' w) : LiveS h w := by
  unfold LiveS at *
  rcases kind_cases w with k | k | k | k | k | k <;> rw [k.1] at hl ⊢ <;> simp only at hl ⊢
  · obtain ⟨s, e⟩ := hl
    obtain ⟨s', e', _⟩ := r.lstrs _ s e
    exact ⟨s', e'⟩
  · obtain ⟨s, e⟩ := hl; exact ⟨s, r.sstrs _ _ e⟩
  · obtain ⟨s, e⟩ := hl; exact ⟨s, r.dbls _ _ e⟩
  · obtain ⟨s, e⟩ := hl; exact ⟨s, r.ints _ _ e⟩

theorem kind_sstr {w : Word} (h : isShortstr w = true) : kind w = .sstr := by
  rcases kind_cases w with k | k | k | k | k | k <;> simp_all

/-- What is still there has the same contents. -/
theorem Shrunk.bytes (r : Shrunk h h') {w : Word} (hl : LiveS h' w) : decodeBytes h' w = decodeBytes h w := by
  refine decodeBytes_congr (fun hs => ?_) (fun hs => ?_)
  · rw [LiveS, kind_sstr hs] at hl
    obtain ⟨b, e⟩ := hl
    rw [e, r.sstrs _ _ e]
  · rw [LiveS, isPtr_lstr hs] at hl
    obtain ⟨b, e⟩ := hl
    obtain ⟨s, e1, e2, e3, e4⟩ := r.lstrs _ _ e
    rw [e, e1]; simp [e4]

theorem Shrunk.key (r : Shrunk h h') (hI : SInv C h' F) {o : Word} {s : LStr} (hs : h'.lstrs o = some s) : keyOf h o = keyOf h' o := by
  obtain ⟨s', e1, e2, e3, e4⟩ := r.lstrs o s hs
  refine keyOf_congr hs e1 e2.symm e4.symm e3.symm ?_
  exact Or.inr (r.bytes (hI.live (.ext o) _ ⟨s, hs, rfl⟩)).symm

theorem SInv.key_some (hI : SInv C h F) {o : Word} {s : LStr} (hs : h.lstrs o = some s) : ∃ k, keyOf h o = some k := by
  simp only [keyOf, hs, Option.bind_some]
  by_cases h0 : s.extra = 0#64
  · simp [extraOf, h0]
  · have hl := hI.live (.ext o) s.extra ⟨s, hs, rfl⟩
    rcases hI.ext o s hs with he | he | ⟨he, e, g1, g2, g3⟩
    · exact absurd he h0
    · rw [LiveS, kind_sstr he] at hl
      obtain ⟨b, hb⟩ := hl
      have := hI.sstr _ b hb
      simp [extraOf, h0, decodeStr, decodeBytes, he, hb, cstr, this]
    · have hns : isShortstr s.extra = false := by rcases kind_cases s.extra with k | k | k | k | k | k <;> simp_all
      simp [extraOf, h0, decodeStr, decodeBytes, he, g1, cstr, g3, hns]

/-! ### Layout of long strings -/

def StrType (t : Word) : Prop := t = 5#64 ∨ t = 6#64 ∨ t = 7#64 ∨ t = 8#64

theorem pad_lt (n : Nat) : n ≤ lenGints n * 8 ∧ lenGints n * 8 - n < 8 := by
  unfold lenGints; split <;> omega

theorem newLong_len (data : List Byte) {t : Word} (ht : StrType t) (e c : Word) : (newLong data t e c).len = data.length := by
  obtain ⟨h1, h2⟩ := pad_lt data.length
  have hl : (newLong data t e c).data.length = data.length + (lenGints data.length * 8 - data.length) := by simp [newLong]
  have hi : (newLong data t e c).info = (BitVec.ofNat 64 (48 + (lenGints data.length * 8 - data.length)) <<< 8) ||| t := by
    simp only [newLong, List.length_append, List.length_replicate]
    congr 3
    omega
  have key : (((newLong data t e c).info &&& 0xff00#64) >>> 8).toNat = 48 + (lenGints data.length * 8 - data.length) := by
    rw [hi]
    generalize lenGints data.length * 8 - data.length = k at h2
    interval_cases k <;> rcases ht with rfl | rfl | rfl | rfl <;> rfl
  rw [LStr.len, LStr.size, key, hl]
  omega

theorem newLong_type (data : List Byte) {t : Word} (ht : StrType t) (e c : Word) : (newLong data t e c).type = t := by
  obtain ⟨h1, h2⟩ := pad_lt data.length
  have hi : (newLong data t e c).info = (BitVec.ofNat 64 (48 + (lenGints data.length * 8 - data.length)) <<< 8) ||| t := by
    simp only [newLong, List.length_append, List.length_replicate]
    congr 3
    omega
  rw [LStr.type, hi]
  generalize lenGints data.length * 8 - data.length = k at h2
  interval_cases k <;> rcases ht with rfl | rfl | rfl | rfl <;> rfl

theorem newLong_take (data : List Byte) {t : Word} (ht : StrType t) (e c : Word) :
    (newLong data t e c).data.take (newLong data t e c).len = data := by
  rw [newLong_len data ht]; simp [newLong]

theorem Layout.facts {s : LStr} (hs : Layout s) : s.len ≤ s.data.length ∧ StrType s.type := by
  obtain ⟨d, t, ht, e⟩ := hs
  have h1 : s.len = (newLong d t s.extra s.chain).len := by rw [e]; rfl
  have h2 : s.type = (newLong d t s.extra s.chain).type := by rw [e]; rfl
  have h3 : s.data = (newLong d t s.extra s.chain).data := by rw [e]; rfl
  rw [h1, h2, h3, newLong_len d ht, newLong_type d ht]
  exact ⟨by simp [newLong], ht⟩

/-! ### Lookup -/

theorem rightBucket_eq {s : LStr} {e : Option (List Byte)} (hL : Layout s) (he : extraOf h s = some e) (data : List Byte)
    (extra : Option (List Byte)) (type : Word) :
    rightBucket h s data extra type = some (decide ((s.data.take s.len, e, s.type) = (data, extra, type))) := by
  unfold rightBucket
  by_cases h1 : s.type = type
  · rw [if_neg (by simp [h1])]
    by_cases h2 : s.len = data.length
    · rw [if_neg (by simp [h2]), ← h2]
      by_cases h3 : s.data.take s.len = data
      · simp [h3, he, h1]
      · simp [h3]
    · rw [if_pos h2]
      have : s.data.take s.len ≠ data := by
        intro e'; apply h2; rw [← e', List.length_take, Nat.min_eq_left hL.facts.1]
      simp [this]
  · simp [h1]

theorem findBucket_ok (hL : ∀ o s, h.lstrs o = some s → Layout s) (data : List Byte) (extra : Option (List Byte)) (type : Word) :
    ∀ (l : List Word) (n : Nat) (cur : Word), Chain (lnext h) cur l → l.length < n →
      (∀ w ∈ l, ∃ k, keyOf h (decodeLongstr w) = some k) →
      ∃ r, findBucket h data extra type n cur = some r ∧
        ((r = 0#64 ∧ ∀ w ∈ l, keyOf h (decodeLongstr w) ≠ some (data, extra, type)) ∨
          (r ∈ l ∧ keyOf h (decodeLongstr r) = some (data, extra, type))) := by
  intro l
  induction l with
  | nil =>
    intro n cur hc hn _
    obtain ⟨k, rfl⟩ : ∃ k, n = k + 1 := ⟨n - 1, by simp at hn; omega⟩
    simp only [Chain, Seg] at hc
    exact ⟨0#64, by rw [findBucket, if_pos hc], Or.inl ⟨rfl, by simp⟩⟩
  | cons a l ih =>
    intro n cur hc hn hk
    obtain ⟨m, rfl⟩ : ∃ k, n = k + 1 := ⟨n - 1, by simp at hn; omega⟩
    obtain ⟨rfl, h0, nx, hnx, hc2⟩ := hc
    obtain ⟨k, hk1⟩ := hk cur (by simp)
    rw [findBucket, if_neg h0]
    cases hs : h.lstrs (decodeLongstr cur) with
    | none => simp [keyOf, hs] at hk1
    | some s =>
      simp only [lnext, hs, Option.map_some, Option.some.injEq] at hnx
      have hk2 := hk1
      simp only [keyOf, hs, Option.bind_some] at hk2
      cases he : extraOf h s with
      | none => rw [he] at hk2; simp at hk2
      | some e =>
        rw [he] at hk2
        simp only [Option.map_some, Option.some.injEq] at hk2
        simp only [rightBucket_eq (hL _ s hs) he]
        by_cases hq : (s.data.take s.len, e, s.type) = (data, extra, type)
        · simp only [hq, decide_true]
          exact ⟨cur, rfl, Or.inr ⟨by simp, by rw [hk1, ← hk2, hq]⟩⟩
        · simp only [hq, decide_false]
          rw [hnx]
          obtain ⟨r, g1, g2⟩ := ih m nx hc2 (by simp at hn; omega) (fun w hw => hk w (by simp [hw]))
          refine ⟨r, g1, ?_⟩
          rcases g2 with ⟨g2, g3⟩ | ⟨g2, g3⟩
          · refine Or.inl ⟨g2, ?_⟩
            intro w hw
            rcases List.mem_cons.1 hw with rfl | hw
            · rw [hk1, ← hk2]; simpa using hq
            · exact g3 w hw
          · exact Or.inr ⟨by simp [g2], g3⟩

/-! ### A new long string -/

theorem enc_ne_zero {o : Word} (ha : Aligned o) : encodeLongstr o ≠ 0#64 := by
  intro e
  have := lstr_is ha
  rw [e] at this
  exact absurd this (by decide)

/-- The heap with a new string at the head of bucket `b`. -/
def Heap.newL (h : Heap) (o : Word) (s : LStr) (b : Nat) : Heap :=
  { h with lstrs := upd h.lstrs o (some s), hash := fun i => if i = b then encodeLongstr o else h.hash i }

theorem SInv.create (hI : SInv C h F) {i : Nat} {e o head type : Word} {data : List Byte} {ex : Option (List Byte)} {l0 : List Word}
    (hF : F (.tmp i) = some e) (hx : ExtraOK h e) (hx2 : (if e = 0#64 then some none else (decodeStr h e).map some) = some ex)
    (ho : h.lstrs o = none) (ha : Aligned o) (ht : StrType type) (hl0 : Chain (lnext h) head l0)
    (hl1 : ∀ w ∈ l0, isLongstr w = true ∧ ∃ k, keyOf h (decodeLongstr w) = some k ∧ hashK h.hlen k = hashTyped h.hlen data ex)
    (hC : C → head = h.hash (hashTyped h.hlen data ex) ∧ ∀ o', keyOf h o' ≠ some (data, ex, type)) :
    SInv C (h.newL o (newLong data type e head) (hashTyped h.hlen data ex)) (setF F (.tmp i) none) ∧
    Grown h (h.newL o (newLong data type e head) (hashTyped h.hlen data ex)) ∧
    keyOf (h.newL o (newLong data type e head) (hashTyped h.hlen data ex)) o = some (data, ex, type) ∧
    (∀ o', o' ≠ o → keyOf (h.newL o (newLong data type e head) (hashTyped h.hlen data ex)) o' = keyOf h o') := by
  have hgrow : Grown h (h.newL o (newLong data type e head) (hashTyped h.hlen data ex)) := by
    refine ⟨rfl, rfl, rfl, fun _ _ e => e, fun _ _ e => e, fun _ _ e => e, fun x s hs => ?_⟩
    have hxo : x ≠ o := by rintro rfl; rw [ho] at hs; cases hs
    exact ⟨s, by simp only [Heap.newL, upd_ne _ _ hxo]; exact hs, rfl, rfl, rfl, rfl⟩
  have hnl : ∀ x, x ≠ o → (h.newL o (newLong data type e head) (hashTyped h.hlen data ex)).lstrs x = h.lstrs x := fun x hx => by
    simp only [Heap.newL, upd_ne _ _ hx]
  have hno : (h.newL o (newLong data type e head) (hashTyped h.hlen data ex)).lstrs o = some (newLong data type e head) := by
    simp only [Heap.newL, upd_self]
  have hle : LiveS h e := hI.live (.tmp i) e (by simp [Held, hF])
  have hlnew : ∀ x, LiveS h x → LiveS (h.newL o (newLong data type e head) (hashTyped h.hlen data ex)) x := fun x hl =>
    hgrow.shrunk.liveS hl
  have hk1 : keyOf (h.newL o (newLong data type e head) (hashTyped h.hlen data ex)) o = some (data, ex, type) := by
    simp only [keyOf, hno, Option.bind_some, newLong_take data ht, newLong_type data ht]
    have : extraOf (h.newL o (newLong data type e head) (hashTyped h.hlen data ex)) (newLong data type e head) = some ex := by
      have he : (newLong data type e head).extra = e := rfl
      rw [extraOf, he, ← hx2]
      simp only [decodeStr, hgrow.shrunk.bytes hle]
    rw [this]; rfl
  have hk2 : ∀ o', o' ≠ o → keyOf (h.newL o (newLong data type e head) (hashTyped h.hlen data ex)) o' = keyOf h o' := by
    intro o' ho'
    cases hs : h.lstrs o' with
    | none => simp [keyOf, hnl o' ho', hs]
    | some s => exact hgrow.shrunk.key hI hs
  refine ⟨?_, hgrow, hk1, hk2⟩
  obtain ⟨hc, hc1, hc2⟩ := hI.hash
  have hnotin : ∀ b, encodeLongstr o ∉ hc b := by
    intro b hm
    obtain ⟨_, k, hk, _⟩ := hc2 b _ hm
    rw [lstr_dec_enc ha] at hk
    simp [keyOf, ho] at hk
  have hdne : ∀ w, isLongstr w = true → (∃ k, keyOf h (decodeLongstr w) = some k) → decodeLongstr w ≠ o := by
    rintro w _ ⟨k, hk⟩ e
    rw [e] at hk; simp [keyOf, ho] at hk
  have hh : ∀ a x, Held (h.newL o (newLong data type e head) (hashTyped h.hlen data ex)) (setF F (.tmp i) none) a x ↔
      (if a = .ext o then e = x else a ≠ .tmp i ∧ Held h F a x) := by
    intro a x
    rw [held_drop (by rfl)]
    split_ifs with c
    · subst c
      simp only [ne_eq, reduceCtorEq, not_false_eq_true, true_and, Held, hno, Option.some.injEq, exists_eq_left']
      rfl
    · refine and_congr_right (fun _ => ?_)
      cases a with
      | fld _ _ => exact Iff.rfl
      | tmp _ => exact Iff.rfl
      | ext s =>
        have : s ≠ o := by rintro rfl; exact c rfl
        simp only [Held, hnl s this]
  have hnoext : ∀ x, ¬ Held h F (.ext o) x := by rintro x ⟨s, hs, _⟩; rw [ho] at hs; cases hs
  have hchain : ∀ b, Chain (lnext (h.newL o (newLong data type e head) (hashTyped h.hlen data ex)))
      ((h.newL o (newLong data type e head) (hashTyped h.hlen data ex)).hash b)
      (if b = hashTyped h.hlen data ex then encodeLongstr o :: l0 else hc b) := by
    intro b
    have hcong : ∀ l : List Word, (∀ w ∈ l, isLongstr w = true ∧ ∃ k, keyOf h (decodeLongstr w) = some k) → ∀ w ∈ l,
        lnext h w = lnext (h.newL o (newLong data type e head) (hashTyped h.hlen data ex)) w := by
      intro l hl w hw
      simp only [lnext, hnl _ (hdne w (hl w hw).1 (hl w hw).2)]
    by_cases hb : b = hashTyped h.hlen data ex
    · rw [if_pos hb]
      refine ⟨by simp [Heap.newL, hb], enc_ne_zero ha, head, ?_, ?_⟩
      · simp only [lnext, lstr_dec_enc ha, hno, Option.map_some]; rfl
      · exact Seg.congr (hcong l0 (fun w hw => ⟨(hl1 w hw).1, (hl1 w hw).2.imp fun _ k => k.1⟩)) hl0
    · rw [if_neg hb]
      have : (h.newL o (newLong data type e head) (hashTyped h.hlen data ex)).hash b = h.hash b := by simp [Heap.newL, hb]
      rw [this]
      exact Seg.congr (hcong (hc b) (fun w hw => ⟨(hc2 b w hw).1, (hc2 b w hw).2.imp fun _ k => k.1⟩)) (hc1 b)
  have hexok : ∀ x, ExtraOK h x → ExtraOK (h.newL o (newLong data type e head) (hashTyped h.hlen data ex)) x := by
    rintro x (c | c | ⟨c1, s, c2, c3, c4⟩)
    · exact Or.inl c
    · exact Or.inr (Or.inl c)
    · refine Or.inr (Or.inr ⟨c1, s, ?_, c3, c4⟩)
      rw [hnl]
      · exact c2
      · intro e; rw [e, ho] at c2; cases c2
  exact {
    live := fun a x ha' => by
      rw [hh] at ha'
      split_ifs at ha'
      · rw [← ha']; exact hlnew e hle
      · exact hlnew x (hI.live a x ha'.2)
    own := fun a b x hx ha' hb' => by
      rw [hh] at ha' hb'
      have hti : e = x → Held h F (.tmp i) x := fun q => by simp [Held, hF, q]
      split_ifs at ha' hb' with c d d
      · rw [c, d]
      · exact absurd (hI.own _ _ x hx hb'.2 (hti ha')) hb'.1
      · exact absurd (hI.own _ _ x hx ha'.2 (hti hb')) ha'.1
      · exact hI.own a b x hx ha'.2 hb'.2
    refc := fun x s hs => by
      by_cases hxo : x = o
      · subst hxo
        rw [hno] at hs; cases hs
        refine IsCount.zero ?_
        intro p hp
        rw [hh] at hp
        have : ¬ LiveS h (encodeLongstr x) := by
          rw [LiveS, kind_lstr_enc ha, lstr_dec_enc ha, ho]; simp
        split_ifs at hp
        · rw [hp] at hle; exact this hle
        · exact this (hI.live p _ hp.2)
      · rw [hnl x hxo] at hs
        refine (hI.refc x s hs).move (a := .tmp i) (b := .ext o) (hnoext _) ?_ ?_ ?_
        · rw [hh]; simp
        · rw [hh, if_pos rfl]; simp [Held, hF]
        · intro p h1 h2
          rw [hh, if_neg h2]; simp [h1]
    ext := fun x s hs => by
      by_cases hxo : x = o
      · subst hxo
        rw [hno] at hs; cases hs
        exact hexok e hx
      · rw [hnl x hxo] at hs; exact hexok _ (hI.ext x s hs)
    layout := fun x s hs => by
      by_cases hxo : x = o
      · subst hxo
        rw [hno] at hs; cases hs
        exact ⟨data, type, ht, rfl⟩
      · rw [hnl x hxo] at hs; exact hI.layout x s hs
    al := fun x s hs => by
      by_cases hxo : x = o
      · rw [hxo]; exact ha
      · rw [hnl x hxo] at hs; exact hI.al x s hs
    sstr := hI.sstr
    hash := by
      refine ⟨_, hchain, ?_⟩
      intro b w hw
      have aux : ∀ b, (isLongstr w = true ∧ ∃ k, keyOf h (decodeLongstr w) = some k ∧ hashK h.hlen k = b) →
          isLongstr w = true ∧ ∃ k, keyOf (h.newL o (newLong data type e head) (hashTyped h.hlen data ex)) (decodeLongstr w) = some k ∧
            hashK h.hlen k = b := by
        rintro b ⟨g1, k, g2, g3⟩
        exact ⟨g1, k, by rw [hk2 _ (hdne w g1 ⟨k, g2⟩)]; exact g2, g3⟩
      split_ifs at hw with hb
      · rcases List.mem_cons.1 hw with rfl | hw
        · refine ⟨lstr_is ha, (data, ex, type), ?_, hb.symm⟩
          rw [lstr_dec_enc ha]; exact hk1
        · rw [hb]; exact aux _ (hl1 w hw)
      · exact aux b (hc2 b w hw)
    full := fun c => by
      obtain ⟨f1, f2⟩ := hI.full c
      obtain ⟨c1, c2⟩ := hC c
      have hl0' : l0 = hc (hashTyped h.hlen data ex) := by
        rw [c1] at hl0; exact Chain.unique hl0 (hc1 _)
      refine ⟨?_, ?_⟩
      · intro x k l hk hl
        have hll := Chain.unique hl (hchain _)
        have hhl : (h.newL o (newLong data type e head) (hashTyped h.hlen data ex)).hlen = h.hlen := rfl
        rw [hhl] at hll
        by_cases hxo : x = o
        · subst hxo
          rw [hk1] at hk; cases hk
          rw [hll]
          simp [hashK]
        · rw [hk2 x hxo] at hk
          have := f1 x k _ hk (hc1 _)
          rw [hll]
          split_ifs with hb
          · rw [hl0', ← hb]; simp [this]
          · exact this
      · intro x y k g1 g2
        by_cases hxo : x = o <;> by_cases hyo : y = o
        · rw [hxo, hyo]
        · subst hxo
          rw [hk1] at g1; cases g1
          rw [hk2 y hyo] at g2
          exact absurd g2 (c2 y)
        · subst hyo
          rw [hk1] at g2; cases g2
          rw [hk2 x hxo] at g1
          exact absurd g1 (c2 x)
        · rw [hk2 x hxo] at g1; rw [hk2 y hyo] at g2
          exact f2 x y k g1 g2 }

end WG.Recs
