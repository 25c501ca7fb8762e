import Verif.IndexMaint.Tree
/-! # The loops over indexes, columns and places -/
namespace WG.Recs
open WG.TTree

variable {C : Prop} {h h' : Heap}

/-- What identifies an index. -/
def Idx.key (e : Idx) : Nat × Word × List Nat := (e.col, e.mrec, e.fixed)

theorem Idx.key_inj {e e' : Idx} (hk : e'.key = e.key) : e'.col = e.col ∧ e'.mrec = e.mrec ∧ e'.fixed = e.fixed := by
  simp only [Idx.key, Prod.mk.injEq] at hk
  exact hk

/-- The operation on one index. -/
def opIx (add : Bool) : Heap → Word → Idx → Idx × Int := if add then addRowIx else delRowIx

/-- Rows after adding or removing the rows `P`. -/
def Change (add : Bool) (S P : Word → Prop) : Word → Prop := fun q => if add then S q ∨ P q else S q ∧ ¬ P q

/-- The rows to be added are absent, those to be removed present. -/
def Ready (add : Bool) (S P : Word → Prop) : Prop := ∀ q, P q → if add then ¬ S q else S q

theorem opIx_key (add : Bool) (r : Word) (e : Idx) : (opIx add h r e).1.key = e.key := by
  cases add <;> rfl

theorem opIx_ok (add : Bool) {e : Idx} {S : Word → Prop} (hi : IdxSt h e S) {r w : Word} (hf : (view h).field r e.col = some w) (hv : Val h w)
    (hr : Ready add S (· = r)) : (opIx add h r e).2 = 0 ∧ IdxSt h (opIx add h r e).1 (Change add S (· = r)) := by
  cases add with
  | true => exact hi.add (by simpa [Ready] using hr) hf hv
  | false => exact hi.del (by simpa [Ready] using hr) hf hv

theorem eachIx_ok {sel : Idx → Bool} {f : Idx → Idx × Int} {Q : Idx → Prop} : ∀ {x : List Idx},
    (∀ e ∈ x, sel e = true → (f e).2 = 0 ∧ (f e).1.key = e.key ∧ Q (f e).1) → (∀ e ∈ x, sel e = false → Q e) →
    (eachIx sel f x).2 = 0 ∧ (eachIx sel f x).1.map Idx.key = x.map Idx.key ∧ ∀ e ∈ (eachIx sel f x).1, Q e
  | [], _, _ => ⟨rfl, rfl, by simp [eachIx]⟩
  | e :: t, hf, hn => by
    obtain ⟨i1, i2, i3⟩ := eachIx_ok (x := t) (fun a ha => hf a (by simp [ha])) (fun a ha => hn a (by simp [ha]))
    simp only [eachIx]
    cases hs : sel e with
    | true =>
      obtain ⟨g1, g2, g3⟩ := hf e (by simp) hs
      simp only [if_true, g1, Int.lt_irrefl, if_false]
      refine ⟨i1, by simp [g2, i2], ?_⟩
      intro a ha
      rcases List.mem_cons.1 ha with rfl | ha
      · exact g3
      · exact i3 a ha
    | false =>
      refine ⟨by simpa using i1, by simp [i2], ?_⟩
      intro a ha
      simp only [Bool.false_eq_true, if_false, List.mem_cons] at ha
      rcases ha with rfl | ha
      · exact hn a (by simp) hs
      · exact i3 a ha

theorem mem_key {x x' : List Idx} (hk : x'.map Idx.key = x.map Idx.key) {e' : Idx} (he : e' ∈ x') : ∃ e ∈ x, e'.key = e.key := by
  have : e'.key ∈ x.map Idx.key := by rw [← hk]; exact List.mem_map.2 ⟨e', he, rfl⟩
  obtain ⟨e, h1, h2⟩ := List.mem_map.1 this
  exact ⟨e, h1, h2.symm⟩

/-- Place (`q`, `c`) concerns the index: it is the indexed or a fixed column, and the record matches the template. -/
def Hit (h : Heap) (q : Word) (c : Nat) (e : Idx) : Prop :=
  ∃ rc, h.recs q = some rc ∧ rc.special = false ∧ (e.col = c ∨ c ∈ e.fixed) ∧ e.col < rc.fields.length ∧ matchTemplate h e.mrec q = true

theorem Hit.key {q : Word} {c : Nat} {e e' : Idx} (hk : e'.key = e.key) : Hit h q c e' ↔ Hit h q c e := by
  obtain ⟨a, b, c⟩ := Idx.key_inj hk
  simp only [Hit, a, b, c]

/-- The index's own column is not fixed by its template. -/
def Apart (x : List Idx) : Prop := ∀ e ∈ x, e.col ∉ e.fixed

theorem Apart.key {x x' : List Idx} (ha : Apart x) (hk : x'.map Idx.key = x.map Idx.key) : Apart x' := by
  intro e' he
  obtain ⟨e, h1, h2⟩ := mem_key hk he
  obtain ⟨a, b, c⟩ := Idx.key_inj h2
  rw [a, c]; exact ha e h1

/-- Rows of an index as a function of what identifies it. -/
abbrev Rows := Idx → Word → Prop

/-- The rows depend only on what identifies the index. -/
def Rows.Ok (S : Rows) : Prop := ∀ e e', e'.key = e.key → S e' = S e

def St (h : Heap) (x : List Idx) (S : Rows) : Prop := ∀ e ∈ x, IdxSt h e (S e)

theorem IdxSt.of_key {e e' : Idx} {S : Word → Prop} (he : e'.st = e.st) (hn : e'.next = e.next) (hc : e'.col = e.col) (hi : IdxSt h e S) : IdxSt h e' S := by
  unfold IdxSt at *
  rw [he, hn, hc]; exact hi

theorem field_col {q : Word} {rc : Rec} {c : Nat} (hr : h.recs q = some rc) (hc : c < rc.fields.length) :
    (view h).field q c = some rc.fields[c] := field_mem.2 ⟨rc, hr, List.getElem?_eq_getElem hc⟩

/-- wg_index_add_field, wg_index_del_field. -/
theorem fieldIx_ok (hs : SInv C h (fldF h)) (hg : AllGood h) (add : Bool) {x : List Idx} {S : Rows} (hS : S.Ok) (hx : St h x S) (ha : Apart x) {r : Word} {rc : Rec}
    {c : Nat} (hr : h.recs r = some rc) (hsp : rc.special = false) (hc : c ≤ 127) (hl : c < rc.fields.length)
    (hready : ∀ e ∈ x, Ready add (S e) (fun q => q = r ∧ Hit h r c e)) :
    (fieldIx (opIx add) h x r c).2 = 0 ∧ (fieldIx (opIx add) h x r c).1.map Idx.key = x.map Idx.key ∧
      St h (fieldIx (opIx add) h x r c).1 (fun e => Change add (S e) (fun q => q = r ∧ Hit h r c e)) := by
  have hhit : ∀ e : Idx, Hit h r c e ↔ (e.col = c ∨ c ∈ e.fixed) ∧ e.col < rc.fields.length ∧ matchTemplate h e.mrec r = true := by
    intro e
    constructor
    · rintro ⟨rc', a, b, d⟩
      rw [hr] at a; cases a
      exact d
    · intro d; exact ⟨rc, hr, hsp, d⟩
  have hP : ∀ e : Idx, e.col < rc.fields.length → ∃ w, (view h).field r e.col = some w ∧ Val h w := fun e he =>
    ⟨_, field_col hr he, field_val hs hg (field_col hr he)⟩
  unfold fieldIx
  simp only [hr]
  rw [if_neg (by omega), if_neg (by simp [hsp])]
  set ok := fun e : Idx => decide (e.col < rc.fields.length) && matchTemplate h e.mrec r with hok
  have hokp : ∀ e, ok e = true ↔ e.col < rc.fields.length ∧ matchTemplate h e.mrec r = true := by intro e; simp [hok]
  obtain ⟨a1, a2, a3⟩ := eachIx_ok (sel := fun e => decide (e.col = c) && ok e) (f := opIx add h r) (x := x)
    (Q := fun e => IdxSt h e (Change add (S e) (fun q => q = r ∧ e.col = c ∧ ok e = true))) (by
      intro e he hsel
      simp only [Bool.and_eq_true, decide_eq_true_eq] at hsel
      obtain ⟨h1, h2⟩ := hsel
      obtain ⟨w, hw, hv⟩ := hP e ((hokp e).1 h2).1
      have hrd : Ready add (S e) (· = r) := by
        intro q hq
        exact hready e he q ⟨hq, (hhit e).2 ⟨Or.inl h1, (hokp e).1 h2⟩⟩
      obtain ⟨g1, g2⟩ := opIx_ok add (hx e he) hw hv hrd
      have hk := opIx_key (h := h) add r e
      refine ⟨g1, hk, ?_⟩
      rw [hS _ _ hk]
      obtain ⟨k1, k2, _⟩ := Idx.key_inj hk
      have : ok (opIx add h r e).1 = true := by rw [hokp, k1, k2, ← hokp]; exact h2
      simpa [k1, h1, this] using g2) (by
      intro e he hsel
      refine (hx e he).congr fun q => ?_
      have : ¬ (e.col = c ∧ ok e = true) := by
        rintro ⟨h1, h2⟩
        simp [h1, h2] at hsel
      cases add <;> simp [Change, this])
  rw [a1, if_neg (by decide)]
  set x1 := (eachIx (fun e => decide (e.col = c) && ok e) (opIx add h r) x).1 with hx1
  obtain ⟨b1, b2, b3⟩ := eachIx_ok (sel := fun e => decide (c ∈ e.fixed) && ok e) (f := opIx add h r) (x := x1)
    (Q := fun e => IdxSt h e (Change add (S e) (fun q => q = r ∧ Hit h r c e))) (by
      intro e he hsel
      simp only [Bool.and_eq_true, decide_eq_true_eq] at hsel
      obtain ⟨h1, h2⟩ := hsel
      obtain ⟨w, hw, hv⟩ := hP e ((hokp e).1 h2).1
      have hne : e.col ≠ c := fun hh => (ha.key a2) e he (by rw [hh]; exact h1)
      have hi : IdxSt h e (S e) := (a3 e he).congr fun q => by cases add <;> simp [Change, hne]
      have hht := (hhit e).2 ⟨Or.inr h1, (hokp e).1 h2⟩
      have hrd : Ready add (S e) (· = r) := by
        intro q hq
        obtain ⟨e0, m0, k0⟩ := mem_key a2 he
        have := hready e0 m0 q ⟨hq, (Hit.key k0).1 hht⟩
        rwa [hS e0 e k0]
      obtain ⟨g1, g2⟩ := opIx_ok add hi hw hv hrd
      have hk := opIx_key (h := h) add r e
      refine ⟨g1, hk, ?_⟩
      rw [hS _ _ hk]
      simpa [(Hit.key hk).2 hht] using g2) (by
      intro e he hsel
      refine (a3 e he).congr fun q => ?_
      have : Hit h r c e ↔ e.col = c ∧ ok e = true := by
        rw [hhit, hokp]
        constructor
        · rintro ⟨h1 | h1, h2⟩
          · exact ⟨h1, h2⟩
          · simp [h1, (hokp e).2 h2] at hsel
        · rintro ⟨h1, h2⟩; exact ⟨Or.inl h1, h2⟩
      rw [this])
  exact ⟨b1, b2.trans a2, b3⟩

/-- wg_index_add_rec, wg_index_del_rec. -/
theorem recLoop_ok (hs : SInv C h (fldF h)) (hg : AllGood h) (add : Bool) {r : Word} {rc : Rec} (hr : h.recs r = some rc) :
    ∀ (n i : Nat) {x : List Idx} {S : Rows}, S.Ok → St h x S → i + n ≤ rc.fields.length →
    (∀ e ∈ x, Ready add (S e) (fun q => q = r ∧ (i ≤ e.col ∧ e.col < i + n) ∧ matchTemplate h e.mrec r = true)) →
    (recLoop (opIx add) h r n i x).2 = 0 ∧ (recLoop (opIx add) h r n i x).1.map Idx.key = x.map Idx.key ∧
      St h (recLoop (opIx add) h r n i x).1 (fun e => Change add (S e) (fun q => q = r ∧ (i ≤ e.col ∧ e.col < i + n) ∧ matchTemplate h e.mrec r = true))
  | 0, i, x, S, hS, hx, hl, hready => by
    refine ⟨rfl, rfl, fun e he => (hx e he).congr fun q => ?_⟩
    have : ¬ (i ≤ e.col ∧ e.col < i + 0) := by omega
    cases add <;> simp only [Change, this, false_and, and_false, or_false, not_false_eq_true, and_true, if_true, Bool.false_eq_true, if_false]
  | n + 1, i, x, S, hS, hx, hl, hready => by
    obtain ⟨a1, a2, a3⟩ := eachIx_ok (sel := fun e => decide (e.col = i) && matchTemplate h e.mrec r) (f := opIx add h r) (x := x)
      (Q := fun e => IdxSt h e (Change add (S e) (fun q => q = r ∧ e.col = i ∧ matchTemplate h e.mrec r = true))) (by
        intro e he hsel
        simp only [Bool.and_eq_true, decide_eq_true_eq] at hsel
        obtain ⟨h1, h2⟩ := hsel
        have hlt : e.col < rc.fields.length := by omega
        have hrd : Ready add (S e) (· = r) := by
          intro q hq
          exact hready e he q ⟨hq, by omega, h2⟩
        obtain ⟨g1, g2⟩ := opIx_ok add (hx e he) (field_col hr hlt) (field_val hs hg (field_col hr hlt)) hrd
        have hk := opIx_key (h := h) add r e
        refine ⟨g1, hk, ?_⟩
        rw [hS _ _ hk]
        obtain ⟨k1, k2, _⟩ := Idx.key_inj hk
        simpa [k1, k2, h1, h2] using g2) (by
        intro e he hsel
        refine (hx e he).congr fun q => ?_
        have : ¬ (e.col = i ∧ matchTemplate h e.mrec r = true) := by
          rintro ⟨h1, h2⟩
          simp [h1, h2] at hsel
        cases add <;> simp [Change, this])
    simp only [recLoop]
    rw [a1, if_neg (by decide)]
    obtain ⟨b1, b2, b3⟩ := recLoop_ok hs hg add hr n (i + 1) (x := (eachIx (fun e => decide (e.col = i) && matchTemplate h e.mrec r) (opIx add h r) x).1)
      (S := fun e => Change add (S e) (fun q => q = r ∧ e.col = i ∧ matchTemplate h e.mrec r = true)) (by
        intro e e' hk
        obtain ⟨k1, k2, _⟩ := Idx.key_inj hk
        simp only [hS e e' hk, k1, k2]) a3 (by omega) (by
        intro e' he' q hq
        obtain ⟨e, he, hk⟩ := mem_key a2 he'
        obtain ⟨k1, k2, _⟩ := Idx.key_inj hk
        rw [k1, k2] at hq
        have h3 := hready e he q ⟨hq.1, by omega, hq.2.2⟩
        have h4 : ¬ e.col = i := by omega
        simp only [Change, hS e e' hk, k1, h4, false_and, and_false, or_false, not_false_eq_true, and_true]
        cases add <;> simpa using h3)
    refine ⟨b1, b2.trans a2, fun e he => (b3 e he).congr fun q => ?_⟩
    have : (q = r ∧ (i ≤ e.col ∧ e.col < i + (n + 1)) ∧ matchTemplate h e.mrec r = true) ↔
        (q = r ∧ e.col = i ∧ matchTemplate h e.mrec r = true) ∨ (q = r ∧ (i + 1 ≤ e.col ∧ e.col < i + 1 + n) ∧ matchTemplate h e.mrec r = true) := by
      constructor
      · rintro ⟨h1, h2, h3⟩
        by_cases he : e.col = i
        · exact Or.inl ⟨h1, he, h3⟩
        · exact Or.inr ⟨h1, by omega, h3⟩
      · rintro (⟨h1, h2, h3⟩ | ⟨h1, h2, h3⟩) <;> exact ⟨h1, by omega, h3⟩
    cases add <;> simp only [Change, this] <;> simp <;> tauto

/-- A walk over places. -/
theorem runOps_ok (hs : SInv C h (fldF h)) (hg : AllGood h) (add : Bool) : ∀ (L : List (Word × Nat)) {x : List Idx} {S : Rows}, S.Ok → St h x S → Apart x →
    (∀ a ∈ L, ∃ rc, h.recs a.1 = some rc ∧ rc.special = false ∧ a.2 ≤ 127 ∧ a.2 < rc.fields.length) →
    (∀ e ∈ x, Ready add (S e) (fun q => ∃ c, (q, c) ∈ L ∧ Hit h q c e)) →
    L.Pairwise (fun a b => ∀ e ∈ x, a.1 = b.1 → Hit h a.1 a.2 e → ¬ Hit h b.1 b.2 e) →
    (runOps (fieldIx (opIx add) h) L x).2 = true ∧ (runOps (fieldIx (opIx add) h) L x).1.map Idx.key = x.map Idx.key ∧
      St h (runOps (fieldIx (opIx add) h) L x).1 (fun e => Change add (S e) (fun q => ∃ c, (q, c) ∈ L ∧ Hit h q c e))
  | [], x, S, hS, hx, ha, hL, hready, hpw => by
    refine ⟨rfl, rfl, fun e he => (hx e he).congr fun q => ?_⟩
    cases add <;> simp [Change]
  | (p, c) :: L, x, S, hS, hx, ha, hL, hready, hpw => by
    obtain ⟨rc, hr, hsp, hc, hl⟩ := hL (p, c) (by simp)
    obtain ⟨a1, a2, a3⟩ := fieldIx_ok hs hg add hS hx ha hr hsp hc hl (fun e he q hq => hready e he q ⟨c, by simp [hq.1], by rw [hq.1]; exact hq.2⟩)
    simp only [runOps]
    rw [a1, if_neg (by decide)]
    rw [List.pairwise_cons] at hpw
    obtain ⟨b1, b2, b3⟩ := runOps_ok hs hg add L (x := (fieldIx (opIx add) h x p c).1) (S := fun e => Change add (S e) (fun q => q = p ∧ Hit h p c e)) (by
        intro e e' hk
        have := @Hit.key h p c e e' hk
        simp only [hS e e' hk, this]) a3 (ha.key a2) (fun a hm => hL a (by simp [hm])) (by
        intro e' he' q hq
        obtain ⟨e, he, hk⟩ := mem_key a2 he'
        obtain ⟨c', m1, m2⟩ := hq
        have m3 := (Hit.key hk).1 m2
        have h3 := hready e he q ⟨c', by simp [m1], m3⟩
        have h4 : ¬ (q = p ∧ Hit h p c e') := by
          rintro ⟨rfl, h5⟩
          exact hpw.1 (q, c') m1 e he rfl ((Hit.key hk).1 h5) m3
        simp only [Change, hS e e' hk, h4, or_false, not_false_eq_true, and_true]
        cases add <;> simpa using h3) (by
        refine hpw.2.imp ?_
        intro a b hab e' he' h1 h2 h3
        obtain ⟨e, he, hk⟩ := mem_key a2 he'
        exact hab e he h1 ((Hit.key hk).1 h2) ((Hit.key hk).1 h3))
    refine ⟨b1, b2.trans a2, fun e he => (b3 e he).congr fun q => ?_⟩
    have : (∃ c', (q, c') ∈ (p, c) :: L ∧ Hit h q c' e) ↔ (q = p ∧ Hit h p c e) ∨ ∃ c', (q, c') ∈ L ∧ Hit h q c' e := by
      constructor
      · rintro ⟨c', m, hh⟩
        rcases List.mem_cons.1 m with m | m
        · cases m; exact Or.inl ⟨rfl, hh⟩
        · exact Or.inr ⟨c', m, hh⟩
      · rintro (⟨rfl, hh⟩ | ⟨c', m, hh⟩)
        · exact ⟨c, by simp, hh⟩
        · exact ⟨c', by simp [m], hh⟩
    cases add <;> simp only [Change, this] <;> simp <;> tauto

end WG.Recs
