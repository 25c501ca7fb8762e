import Verif.Json.Grow
/-! # Values that have been created but not stored yet -/
namespace WG.Json
open WG.Recs

variable {C : Prop} {ι : Type} {h h' : Heap} {X : Ix ι} {s0 s s' : Db ι} {k : Nat} {L : List Word} {A : Alloc ι}

theorem Steps.reach (hr : Reach C X s0) {k : Nat} {s : Db ι} (hs : Steps C X s0 k s) : Reach C X s := by
  induction hs with
  | refl => exact hr
  | step _ _ hp he ih => exact ih.step hp he

/-- The words that name one object. -/
def Single (w : Word) : Prop := isRecVal w = true ∨ Owned w

/-- The state of an import: `s0` is the database before it, `L` the values waiting to be stored. -/
structure LInv (C : Prop) (X : Ix ι) (s0 : Db ι) (k : Nat) (s : Db ι) (L : List Word) : Prop where
  steps : Steps C X s0 k s
  inv : Inv C s.h
  ext : Ext s0.h s.h
  sok : ∀ w ∈ L, SOK s.h w
  fresh : ∀ w ∈ L, isRecVal w = true → s0.h.recs w = none
  unref : ∀ w ∈ L, isRecVal w = true → ∀ p i, ¬ RefersAt (view s.h) p i w
  distinct : L.Pairwise (fun a b => a = b → ¬ Single a)
  closed : ∀ p rc x, s.h.recs p = some rc → s0.h.recs p = none → x ∈ rc.fields → isRecVal x = true → s0.h.recs x = none
  single : ∀ x, isRecVal x = true → s0.h.recs x = none → ∀ p i q j, RefersAt (view s.h) p i x → RefersAt (view s.h) q j x → p = q ∧ i = j

theorem LInv.start (hr : Reach C X s0) : LInv C X s0 0 s0 [] where
  steps := .refl
  inv := reach_inv hr
  ext := Ext.refl _
  sok := by simp
  fresh := by simp
  unref := by simp
  distinct := .nil
  closed := by intro p rc x e1 e2; rw [e1] at e2; cases e2
  single := by
    rintro x hx hn p i q j ⟨fs, e1, e2⟩ _
    simp only [view, Option.map_eq_some_iff] at e1
    obtain ⟨rc, e3, rfl⟩ := e1
    obtain ⟨rc', e4⟩ := (reach_inv hr).refs p rc x e3 (List.mem_of_getElem? e2) hx
    rw [hn] at e4; cases e4

theorem LInv.perm (hL : LInv C X s0 k s L) {L' : List Word} (hp : L.Perm L') : LInv C X s0 k s L' where
  steps := hL.steps
  inv := hL.inv
  ext := hL.ext
  sok := fun w hw => hL.sok w (hp.mem_iff.2 hw)
  fresh := fun w hw => hL.fresh w (hp.mem_iff.2 hw)
  unref := fun w hw => hL.unref w (hp.mem_iff.2 hw)
  distinct := (hp.pairwise_iff (by rintro a b hab rfl; exact hab rfl)).1 hL.distinct
  closed := hL.closed
  single := hL.single

theorem LInv.tail {w : Word} (hL : LInv C X s0 k s (w :: L)) : LInv C X s0 k s L where
  steps := hL.steps
  inv := hL.inv
  ext := hL.ext
  sok := fun w hw => hL.sok w (List.mem_cons_of_mem _ hw)
  fresh := fun w hw => hL.fresh w (List.mem_cons_of_mem _ hw)
  unref := fun w hw => hL.unref w (List.mem_cons_of_mem _ hw)
  distinct := hL.distinct.tail
  closed := hL.closed
  single := hL.single

theorem kind_zero : kind 0#64 = .imm := by decide

theorem not_single_imm {w : Word} (hk : kind w = .imm) : ¬ Single w := by
  rintro (h | h | h | h)
  · rw [kind_imm_rec hk] at h; cases h
  all_goals rw [hk] at h; cases h

theorem LInv.null (hL : LInv C X s0 k s L) : LInv C X s0 k s (0#64 :: L) where
  steps := hL.steps
  inv := hL.inv
  ext := hL.ext
  sok := by
    intro w hw
    rcases List.mem_cons.1 hw with rfl | hw
    · refine ⟨by rw [LiveS, kind_zero]; trivial, fun e => absurd e (by decide), fun o => absurd (Or.inr o) (not_single_imm kind_zero)⟩
    · exact hL.sok w hw
  fresh := by
    intro w hw hr
    rcases List.mem_cons.1 hw with rfl | hw
    · exact absurd hr (by decide)
    · exact hL.fresh w hw hr
  unref := by
    intro w hw hr
    rcases List.mem_cons.1 hw with rfl | hw
    · exact absurd hr (by decide)
    · exact hL.unref w hw hr
  distinct := List.pairwise_cons.2 ⟨by rintro b _ rfl; exact not_single_imm kind_zero, hL.distinct⟩
  closed := hL.closed
  single := hL.single

theorem andnot_aligned (w : Word) : Aligned (w &&& ~~~7#64) := by
  unfold Aligned
  rw [BitVec.and_assoc, show (~~~7#64 &&& 7#64 : Word) = 0#64 by decide, BitVec.and_zero]

/-! ## Encoding -/

theorem Grown.ext (g : Grown h h') : Ext h h' :=
  ⟨fun r rc e => ⟨rc.back, by rw [g.recs]; exact e⟩, g.shrunk.sub⟩

/-- A new value that is not a record. -/
theorem LInv.encode (hL : LInv C X s0 k s L) {op : Op} {w : Word} (ha : Adds s op) (hp : Pre C X s op) (he : run X s op = some (s', .word w)) (hI : Inv C s'.h)
    (hg : Grown s.h s'.h) (hw : SOK s'.h w) (hr : isRecVal w = false) (hf : Owned w → ¬ LiveS s.h w)
    (hx : ∀ q x, s'.h.lstrs q = some x → x.extra = 0#64 ∨ ∃ x', s.h.lstrs q = some x' ∧ x'.extra = x.extra) :
    LInv C X s0 (k + 1) s' (w :: L) := by
  have hv : view s'.h = view s.h := view_congr hg.recs
  refine ⟨hL.steps.step ha hp he, hI, hL.ext.trans (Grown.ext hg), ?_, ?_, ?_, ?_, ?_, ?_⟩
  · intro u hu
    rcases List.mem_cons.1 hu with rfl | hu
    · exact hw
    · obtain ⟨a, b, c⟩ := hL.sok u hu
      refine ⟨Sub.live (Grown.ext hg).sub a, fun e => by rw [hg.recs]; exact b e, fun ho q hq => ?_⟩
      cases q with
      | fld r i => exact c ho (.fld r i) (by simpa only [Held, fldF, hg.recs] using hq)
      | tmp i => simp [Held, fldF] at hq
      | ext q =>
        obtain ⟨x, e1, e2⟩ := hq
        rcases hx q x e1 with e3 | ⟨x', e3, e4⟩
        · rw [e3] at e2; subst e2
          exact absurd (Or.inr ho) (not_single_imm kind_zero)
        · exact c ho (.ext q) ⟨x', e3, e4.trans e2⟩
  · intro u hu hur
    rcases List.mem_cons.1 hu with rfl | hu
    · rw [hr] at hur; cases hur
    · exact hL.fresh u hu hur
  · intro u hu hur
    rcases List.mem_cons.1 hu with rfl | hu
    · rw [hr] at hur; cases hur
    · rw [hv]; exact hL.unref u hu hur
  · refine List.pairwise_cons.2 ⟨?_, hL.distinct⟩
    rintro b hb rfl (h1 | h1)
    · rw [hr] at h1; cases h1
    · exact hf h1 (hL.sok _ hb).live
  · intro p rc x e1; rw [hg.recs] at e1; exact hL.closed p rc x e1
  · rw [hv]; exact hL.single

theorem reader_int (v : Word) {al : Option Word} (hal : ∀ o, al = some o → Aligned o) (hn : (encInt h v al).2 ≠ illegal) :
    Denotes (encInt h v al).1 (encInt h v al).2 (.int v) := by
  have c1 := C01_int_roundtrip (fun o => (h.ints o).getD 0#64) al v hal
  have hmm : (encodeInt (fun o => (h.ints o).getD 0#64) al v).2 = (encInt h v al).2 := by
    unfold encodeInt encInt
    split_ifs
    · rfl
    · cases al <;> rfl
  rw [hmm] at c1
  obtain ⟨d1, d2⟩ := c1 hn
  have hm : (encodeInt (fun o => (h.ints o).getD 0#64) al v).1 = fun o => ((encInt h v al).1.ints o).getD 0#64 := by
    unfold encodeInt encInt
    split_ifs
    · rfl
    · cases al with
      | none => rfl
      | some o =>
        funext x
        simp only [dbstore, upd]
        split_ifs <;> rfl
  rw [hm] at d1
  simp only [Denotes]
  refine ⟨?_, by simp only [Heap.reader, d1, Option.getD_some]⟩
  have : getEncodedType (encInt h v al).1.mem (encInt h v al).2 = getEncodedType (encodeInt (fun o => (h.ints o).getD 0#64) al v).1 (encInt h v al).2 := by
    refine typ_congr fun hl => ?_
    exfalso
    have hk : isLongstr (encInt h v al).2 = false := by
      unfold encInt at hn ⊢
      split_ifs at hn ⊢
      · have := kind_small v
        rcases kind_cases (encodeSmallint v) with k | k | k | k | k | k <;> simp_all
      · cases al with
        | none => exact absurd rfl hn
        | some o =>
          have := kind_int (int_is (hal o rfl))
          rcases kind_cases (encodeFullintOffset o) with k | k | k | k | k | k <;> simp_all
    rw [hk] at hl; cases hl
  simp only [Heap.reader]
  rw [this]; exact d2

theorem LInv.int (hL : LInv C X s0 k s L) (hA : A.Ok) (v : Word) {h' : Heap} {w : Word} (he : encInt s.h v (A.int s) = (h', w)) :
    LInv C X s0 (k + 1) ⟨h', s.ix⟩ (w :: L) ∧ Ext s.h h' ∧ (w ≠ illegal → Denotes h' w (.int v)) ∧ (w = illegal → A.int s = none) := by
  have hal := hA.int s
  obtain ⟨g1, g2, g3⟩ := encInt_ok hL.inv v hal
  have hd := reader_int (h := s.h) v (fun o e => (hal o e).2)
  have hfull : ∀ o, A.int s = some o → kind (encodeFullintOffset o) = .int := fun o e => kind_int (int_is (hal o e).2)
  have hcase : (fitsSmallint v = true ∧ w = encodeSmallint v) ∨ (A.int s = none ∧ w = illegal) ∨ ∃ o, A.int s = some o ∧ w = encodeFullintOffset o := by
    unfold encInt at he
    split_ifs at he with hs
    · cases he; exact Or.inl ⟨hs, rfl⟩
    · cases ha : A.int s with
      | none => rw [ha] at he; cases he; exact Or.inr (Or.inl ⟨rfl, rfl⟩)
      | some o => rw [ha] at he; cases he; exact Or.inr (Or.inr ⟨o, rfl, rfl⟩)
  have hlstr : h'.lstrs = s.h.lstrs := by
    unfold encInt at he
    split_ifs at he
    · cases he; rfl
    · cases ha : A.int s with
      | none => rw [ha] at he; cases he; rfl
      | some o => rw [ha] at he; cases he; rfl
  rw [he] at g1 g2 g3 hd
  have hrec : isRecVal w = false := by
    rcases hcase with ⟨_, rfl⟩ | ⟨_, rfl⟩ | ⟨o, e1, rfl⟩
    · exact kind_imm_rec (kind_small v)
    · exact kind_imm_rec kind_illegal
    · have := hfull o e1
      rcases kind_cases (encodeFullintOffset o) with k | k | k | k | k | k <;> simp_all
  refine ⟨?_, Grown.ext g2, hd, ?_⟩
  · refine hL.encode (s' := ⟨h', s.ix⟩) (op := .int v (A.int s)) trivial hal (by simp [run, he]) g1 g2 g3 hrec ?_ ?_
    · intro ho hl
      rcases hcase with ⟨_, rfl⟩ | ⟨_, rfl⟩ | ⟨o, e1, rfl⟩
      · exact not_single_imm (kind_small v) (Or.inr ho)
      · exact not_single_imm kind_illegal (Or.inr ho)
      · rw [LiveS, hfull o e1] at hl
        simp only at hl
        rw [int_dec_enc (hal o e1).2, (hal o e1).1] at hl
        obtain ⟨_, e⟩ := hl; cases e
    · intro q x e
      rw [show (⟨h', s.ix⟩ : Db ι).h.lstrs = s.h.lstrs from hlstr] at e
      exact Or.inr ⟨x, e, rfl⟩
  · intro hw
    rcases hcase with ⟨hs, rfl⟩ | ⟨e, _⟩ | ⟨o, e1, rfl⟩
    · exact absurd hw (C03_never_illegal (fun _ => 0#64) (.int v) ((shl_sshr_toInt3 v).1 (by simpa [fitsSmallint] using hs)))
    · exact e
    · exact absurd hw (C03_never_illegal (fun _ => 0#64) (.fullint o) (hal o e1).2)

theorem LInv.dbl (hL : LInv C X s0 k s L) (hA : A.Ok) (v : Word) {h' : Heap} {w : Word} (he : encDouble s.h v (A.dbl s) = (h', w)) :
    LInv C X s0 (k + 1) ⟨h', s.ix⟩ (w :: L) ∧ Ext s.h h' ∧ (w ≠ illegal → Denotes h' w (.dbl v)) ∧ (w = illegal → A.dbl s = none) := by
  have hal := hA.dbl s
  obtain ⟨g1, g2, g3⟩ := encDouble_ok hL.inv v hal
  have hfull : ∀ o, A.dbl s = some o → kind (encodeFulldouble o) = .dbl := fun o e => kind_dbl (dbl_is (hal o e).2)
  have hrec : isRecVal w = false := by
    unfold encDouble at he
    cases ha : A.dbl s with
    | none => rw [ha] at he; cases he; exact kind_imm_rec kind_illegal
    | some o =>
      rw [ha] at he; cases he
      have := hfull o ha
      rcases kind_cases (encodeFulldouble o) with k | k | k | k | k | k <;> simp_all
  have hlstr : h'.lstrs = s.h.lstrs := by
    unfold encDouble at he
    cases ha : A.dbl s with
    | none => rw [ha] at he; cases he; rfl
    | some o => rw [ha] at he; cases he; rfl
  rw [he] at g1 g2 g3
  refine ⟨?_, Grown.ext g2, ?_, ?_⟩
  · refine hL.encode (s' := ⟨h', s.ix⟩) (op := .double v (A.dbl s)) trivial hal (by simp [run, he]) g1 g2 g3 hrec ?_ ?_
    · intro ho hl
      unfold encDouble at he
      cases ha : A.dbl s with
      | none => rw [ha] at he; cases he; exact not_single_imm kind_illegal (Or.inr ho)
      | some o =>
        rw [ha] at he; cases he
        rw [LiveS, hfull o ha] at hl
        simp only at hl
        rw [dbl_dec_enc (hal o ha).2, (hal o ha).1] at hl
        obtain ⟨_, e⟩ := hl; cases e
    · intro q x e
      rw [show (⟨h', s.ix⟩ : Db ι).h.lstrs = s.h.lstrs from hlstr] at e
      exact Or.inr ⟨x, e, rfl⟩
  · intro hw
    unfold encDouble at he
    cases ha : A.dbl s with
    | none => rw [ha] at he; cases he; exact absurd rfl hw
    | some o =>
      rw [ha] at he; cases he
      simp only [Denotes]
      refine ⟨C03_type_correct _ (.double o) (hal o ha).2, ?_⟩
      simp only [Heap.reader, decodeDouble, dbl_is (hal o ha).2, if_true, dbl_dec_enc (hal o ha).2, dbfetch, upd_self, Option.getD_some]
  · intro hw
    unfold encDouble at he
    cases ha : A.dbl s with
    | none => rfl
    | some o =>
      rw [ha] at he; cases he
      exact absurd hw (C03_never_illegal (fun _ => 0#64) (.double o) (hal o ha).2)

theorem encUnistr_extra {str : List Byte} {al : StrAlloc} {w : Word} (he : encUnistr h str none 5#64 al = some (h', w)) (q : Word) (x : LStr)
    (hx : h'.lstrs q = some x) : x.extra = 0#64 ∨ ∃ x', h.lstrs q = some x' ∧ x'.extra = x.extra := by
  unfold encUnistr at he
  split_ifs at he
  · unfold encShort at he
    cases ha : al.short with
    | none => rw [ha] at he; cases he; exact Or.inr ⟨x, hx, rfl⟩
    | some o => rw [ha] at he; cases he; exact Or.inr ⟨x, hx, rfl⟩
  · unfold findCreate at he
    dsimp only at he
    cases hb : findBucket h (str ++ [0#8]) none 5#64 walkFuel (h.hash (hashTyped h.hlen (str ++ [0#8]) none)) with
    | none => rw [hb] at he; cases he
    | some old =>
      rw [hb] at he
      dsimp only at he
      by_cases ho : old ≠ 0#64
      · rw [if_pos ho] at he
        simp only [Option.some.injEq, Prod.mk.injEq] at he
        rw [← he.1] at hx
        exact Or.inr ⟨x, hx, rfl⟩
      · rw [if_neg ho] at he
        cases ha : al.long with
        | none =>
          rw [ha] at he
          simp only [Option.some.injEq, Prod.mk.injEq] at he
          rw [← he.1] at hx
          exact Or.inr ⟨x, hx, rfl⟩
        | some o =>
          rw [ha] at he
          have hi : incRef h 0#64 = some h := rfl
          simp only [hi, Option.map_some, Option.some.injEq, Prod.mk.injEq] at he
          rw [← he.1] at hx
          by_cases hq : q = o
          · subst hq
            rw [show (({ h with lstrs := upd h.lstrs q _, hash := _ } : Heap)).lstrs q = _ from upd_self _ _ _] at hx
            cases hx
            exact Or.inl rfl
          · simp only [upd_ne _ _ hq] at hx
            exact Or.inr ⟨x, hx, rfl⟩

theorem LInv.str (hL : LInv C X s0 k s L) (hA : A.Ok) {str : List Byte} (hz : 0#8 ∉ str) :
    ∃ h' w, encUnistr s.h str none 5#64 (A.str s str) = some (h', w) ∧
    LInv C X s0 (k + 1) ⟨h', s.ix⟩ (w :: L) ∧ Ext s.h h' ∧ (w ≠ illegal → IsStr h' w str) ∧
      (w = illegal → (A.str s str).short = none ∨ (A.str s str).long = none) := by
  have hal := hA.str s str
  have hnc : C → ¬ Clash s.h (str ++ [0#8]) none 5#64 := by rintro _ ⟨_, x, e, _⟩; cases e
  obtain ⟨h', w, e, g1, g2, g3, g4, _⟩ := encUnistr_ok hL.inv hal hz (lang := none) (fun x e => by cases e) strType5 hnc
  have hrec : isRecVal w = false := by
    rcases g4 with ⟨rfl, _⟩ | ⟨_, hs, _⟩ | ⟨_, hs, _⟩
    · exact kind_imm_rec kind_illegal
    · rcases kind_cases w with k | k | k | k | k | k <;> simp_all
    · rcases kind_cases w with k | k | k | k | k | k <;> simp_all
  have hstr : w ≠ illegal → IsStr h' w str := by
    intro hw
    rcases g4 with ⟨a, _⟩ | ⟨⟨_, _, hl⟩, hs, hb⟩ | ⟨_, hs, hb⟩
    · exact absurd a hw
    · obtain ⟨d1, _, d3, _⟩ := decode_short (h := h') hs hz hl hb 1 (by omega)
      refine ⟨?_, d1, d3⟩
      rw [← sstr_enc_dec hs]
      exact C03_type_correct _ (.shortstr (decodeShortstr w)) (andnot_aligned w)
    · obtain ⟨d1, _, d3, _⟩ := decode_long g1.str hs hz hb (by decide) 1
      refine ⟨?_, d1, d3⟩
      obtain ⟨x, pad, e1, e2, e3, e4, _⟩ := bytes_of_key g1.str hs hb
      have hm := mem_lstr h' (decodeLongstr w)
      rw [e1] at hm
      simp only [Option.map_some, Option.getD_some, e4] at hm
      have := C03_type_correct h'.mem (.longstr (decodeLongstr w) .str) ⟨andnot_aligned w, Or.inl rfl, by rw [hm]; rfl⟩
      rw [show (Datum.longstr (decodeLongstr w) .str).encode = w from lstr_enc_dec hs] at this
      exact this
  refine ⟨h', w, e, ?_, Grown.ext g2, hstr, ?_⟩
  · refine hL.encode (s' := ⟨h', s.ix⟩) (op := .str str none 5#64 (A.str s str)) ⟨rfl, rfl⟩ ⟨hal, hz, (fun x e => by cases e), Or.inl rfl, hnc⟩ (by simp [run, e]) g1 g2 g3
      hrec ?_ (fun q x hx => encUnistr_extra e q x hx)
    intro ho hl
    rcases g4 with ⟨rfl, _⟩ | ⟨hs, hss, hb⟩ | ⟨_, hs, _⟩
    · exact not_single_imm kind_illegal (Or.inr ho)
    · unfold encUnistr at e
      rw [if_pos (show none = none ∧ (5#64 : Word) = 5#64 ∧ str.length < 32 from hs)] at e
      unfold encShort at e
      cases ha : (A.str s str).short with
      | none => rw [ha] at e; cases e; exact not_single_imm kind_illegal (Or.inr ho)
      | some o =>
        rw [ha] at e; cases e
        obtain ⟨b1, b2⟩ := hal.short o ha
        rw [LiveS, kind_sstr (sstr_is b2)] at hl
        simp only at hl
        rw [sstr_dec_enc b2, b1] at hl
        obtain ⟨_, e⟩ := hl; cases e
    · have hk := isPtr_lstr hs
      rcases ho with o | o | o <;> rw [hk] at o <;> cases o
  · intro hw
    rcases g4 with ⟨_, (⟨_, b⟩ | ⟨_, b | ⟨x, b, _⟩⟩)⟩ | ⟨_, hs, _⟩ | ⟨_, hs, _⟩
    · exact Or.inl b
    · exact Or.inr b
    · cases b
    · subst hw; exact absurd hs (by decide)
    · subst hw; exact absurd hs (by decide)

end WG.Json
