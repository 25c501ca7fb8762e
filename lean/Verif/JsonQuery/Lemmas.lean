import Verif.JsonQuery.Spec
import Verif.ResultSet.Props
import Verif.Query.Fetch
/-! # Lemmas about document queries -/
namespace WG.JsonQuery
open WG.Recs WG.ResultSet

variable {C : Prop} {ι : Type} {h : Heap} {args : List Arg} {src : Src}

/-- A record belongs to at most one document. -/
theorem doc_unique (ht : ∀ d, IsDocument h d → TreeShaped (view h) d) {d d' r : Word} {n m : Nat} (hd : IsDocument h d) (hd' : IsDocument h d')
    (h1 : Links (view h) d r n) (h2 : Links (view h) d' r m) : d = d' := by
  induction h1 generalizing m with
  | here =>
    generalize he : d = z at h2
    cases h2 with
    | here => exact he.symm ▸ rfl
    | step g1 g2 g3 _ =>
      subst he
      obtain ⟨k, hk⟩ := refersAt_of_mem g2 g3
      exact absurd hk ((ht d hd).root _ _)
  | @step y x k fs g1 g2 g3 g4 ih =>
    generalize he : x = z at h2
    cases h2 with
    | here =>
      subst he
      obtain ⟨j, hj⟩ := refersAt_of_mem g2 g3
      exact absurd hj ((ht _ hd').root _ _)
    | step f1 f2 f3 f4 =>
      subst he
      obtain ⟨j, hj⟩ := refersAt_of_mem g2 g3
      obtain ⟨i, hi⟩ := refersAt_of_mem f2 f3
      have := ((ht d hd).single x ⟨_, .step g1 g2 g3 g4⟩ _ _ _ _ hj hi).1
      subst this
      exact ih f1

/-- What wg_find_document returns. -/
theorem find_document (hI : Inv C h) {r : Word} (hrec : ∃ rc, h.recs r = some rc) :
    ∃ z, findDocument h r = some z ∧ (∀ d, z = some d → IsDocument h d ∧ ∃ n, n < 7 ∧ Links (view h) d r n) ∧
      (z = none → ∀ d n, IsDocument h d → n < 7 → ¬ Links (view h) d r n) := by
  obtain ⟨rc, hrc⟩ := hrec
  obtain ⟨z, e1, e2, e3⟩ := findDocRec_ok hI 6 r rc hrc
  refine ⟨z, e1, fun d hd => ?_, fun hz d n hd hn hl => ?_⟩
  · obtain ⟨a, n, b, c⟩ := e2 d hd
    exact ⟨a, n, by omega, c⟩
  · obtain ⟨rd, g1, g2⟩ := hd
    have := e3 hz d n (by omega) hl rd g1
    rw [g2] at this; cases this

/-- What wg_find_document returns for a record of a document. -/
theorem find_doc (hI : Inv C h) (hD : DocsOk h args) {d r : Word} (hd : IsDocument h d) (hb : Below (view h) d r) :
    findDocument h r = some (some d) := by
  obtain ⟨rc, hrc, _⟩ := hD.data d r hd hb
  obtain ⟨z, e1, e2, e3⟩ := find_document hI ⟨rc, hrc⟩
  obtain ⟨n, hn⟩ := hb
  cases z with
  | none => exact absurd hn (e3 rfl d n hd (hD.shallow d r n hd hn))
  | some d' =>
    obtain ⟨g1, m, _, g2⟩ := e2 d' rfl
    rw [e1, doc_unique hD.tree hd g1 hn g2]

/-! ## The matching of records -/

theorem valueMatch_ok (hI : Inv C h) {r : Word} {rc : Rec} (hr : h.recs r = some rc) {w : Word} (hw : w ∈ rc.fields) (v : Word) :
    ∃ b, valueMatch h w v = some b ∧ (b = true ↔ HasValue h w v) := by
  unfold valueMatch HasValue
  by_cases h1 : WG_COMPARE h.reader w v = 0
  · rw [if_pos h1]
    exact ⟨true, rfl, by simp [h1]⟩
  · rw [if_neg h1]
    by_cases h2 : isRecVal w = true
    · rw [if_pos h2]
      obtain ⟨a, ha⟩ := hI.refs r rc w hr hw h2
      rw [ha]
      refine ⟨_, rfl, ?_⟩
      simp [h1, h2]
    · rw [if_neg h2]
      exact ⟨false, rfl, by simp [h1, h2]⟩

theorem pair_iff {r key v : Word} {rc : Rec} (hr : h.recs r = some rc) : IsPair h r key v ↔
    2 < rc.fields.length ∧ WG_COMPARE h.reader (rc.fields.getD 1 0#64) key = 0 ∧ HasValue h (rc.fields.getD 2 0#64) v := by
  unfold IsPair view
  rw [hr]
  constructor
  · rintro ⟨fs, k, w, e, e1, e2, e3, e4⟩
    cases e
    obtain ⟨l1, g1⟩ := List.getElem?_eq_some_iff.1 e1
    obtain ⟨l2, g2⟩ := List.getElem?_eq_some_iff.1 e2
    refine ⟨l2, ?_, ?_⟩
    · simpa [List.getD_eq_getElem?_getD, e1] using e3
    · simpa [List.getD_eq_getElem?_getD, e2] using e4
  · rintro ⟨l, e1, e2⟩
    refine ⟨rc.fields, rc.fields[1], rc.fields[2], rfl, ?_, ?_, ?_, ?_⟩
    · exact List.getElem?_eq_getElem (by omega)
    · exact List.getElem?_eq_getElem (by omega)
    · simpa [List.getD_eq_getElem?_getD, List.getElem?_eq_getElem (show 1 < rc.fields.length by omega)] using e1
    · simpa [List.getD_eq_getElem?_getD, List.getElem?_eq_getElem l] using e2

/-- A call adds the rows `g` to the result set, or fails for lack of memory. -/
def Adds (mem : ResultSet.Mem) (z : Option (Int × RSet)) (rows g : List Nat) : Prop :=
  ∃ rc set, z = some (rc, set) ∧ ((rc < 0 ∧ ∃ n, mem.page n = false) ∨ (rc = (g.length : Int) ∧ Rep set (rows ++ g)))

theorem rec_ne_zero (hI : Inv C h) {r : Word} {rc : Rec} (hr : h.recs r = some rc) : r.toNat ≠ 0 := by
  have := hI.recs r rc hr
  unfold isRecVal at this
  intro e
  have : r = 0#64 := BitVec.eq_of_toNat_eq (by simpa using e)
  subst this
  simp_all

theorem addDoc_ok {mem : ResultSet.Mem} {r d : Word} (hd : d.toNat ≠ 0) (hf : findDocument h r = some (some d)) {set : RSet} {rows : List Nat} (hs : Rep set rows) :
    Adds mem (addDoc h mem set r) rows [d.toNat] := by
  unfold addDoc
  rw [hf]
  obtain ⟨a, b⟩ := append_rep (mem := mem) hs d.toNat hd
  dsimp only
  cases e : append mem set d.toNat with
  | none => exact ⟨-1, set, rfl, .inl ⟨by omega, b e⟩⟩
  | some s' => exact ⟨1, s', rfl, .inr ⟨by simp, a s' e⟩⟩

/-- Matching with the key already compared. -/
theorem mergeKey_ok (hI : Inv C h) {mem : ResultSet.Mem} {a : Arg} {r : Word} {rc : Rec} (hr : h.recs r = some rc)
    (hk : ∀ k, rc.fields[1]? = some k → WG_COMPARE h.reader k a.1 = 0)
    (hf : IsPair h r a.1 a.2 → ∃ d, d.toNat ≠ 0 ∧ findDocument h r = some (some d)) {set : RSet} {rows : List Nat} (hs : Rep set rows) :
    (IsPair h r a.1 a.2 → ∃ d, findDocument h r = some (some d) ∧ Adds mem (mergeKey h mem a set r) rows [d.toNat]) ∧
    (¬ IsPair h r a.1 a.2 → mergeKey h mem a set r = some (0, set)) := by
  unfold mergeKey
  rw [pair_iff hr, hr]
  dsimp only
  by_cases h1 : rc.fields.length > 2
  · rw [if_pos h1]
    have hk' : WG_COMPARE h.reader (rc.fields.getD 1 0#64) a.1 = 0 := hk _ (by
      rw [List.getD_eq_getElem?_getD, List.getElem?_eq_getElem (show 1 < rc.fields.length by omega)]; rfl)
    have hm : rc.fields.getD 2 0#64 ∈ rc.fields := by
      rw [List.getD_eq_getElem?_getD, List.getElem?_eq_getElem h1]; exact List.getElem_mem h1
    obtain ⟨b, e1, e2⟩ := valueMatch_ok hI hr hm a.2
    rw [e1]
    cases b with
    | true =>
      refine ⟨fun _ => ?_, fun hn => absurd ⟨h1, hk', e2.1 rfl⟩ hn⟩
      obtain ⟨d, g1, g2⟩ := hf ((pair_iff hr).2 ⟨h1, hk', e2.1 rfl⟩)
      exact ⟨d, g2, addDoc_ok g1 g2 hs⟩
    | false =>
      refine ⟨fun hp => absurd (e2.2 hp.2.2) (by simp), fun _ => rfl⟩
  · rw [if_neg h1]
    exact ⟨fun hp => absurd hp.1 h1, fun _ => rfl⟩

theorem mergeKv_ok (hI : Inv C h) {mem : ResultSet.Mem} {a : Arg} {r : Word} {rc : Rec} (hr : h.recs r = some rc)
    (hf : IsPair h r a.1 a.2 → ∃ d, d.toNat ≠ 0 ∧ findDocument h r = some (some d)) {set : RSet} {rows : List Nat} (hs : Rep set rows) :
    (IsPair h r a.1 a.2 → ∃ d, findDocument h r = some (some d) ∧ Adds mem (mergeKv h mem a set r) rows [d.toNat]) ∧
    (¬ IsPair h r a.1 a.2 → mergeKv h mem a set r = some (0, set)) := by
  by_cases hk : WG_COMPARE h.reader (rc.fields.getD 1 0#64) a.1 = 0 ∧ 2 < rc.fields.length
  · have := mergeKey_ok hI (mem := mem) (a := a) hr (fun k e => by have := hk.1; rw [List.getD_eq_getElem?_getD, e] at this; exact this) hf hs
    have e : mergeKv h mem a set r = mergeKey h mem a set r := by
      unfold mergeKv mergeKey
      rw [hr]
      dsimp only
      rw [if_pos hk.2, if_pos hk.1, if_pos hk.2]
    rw [e]
    exact this
  · rw [pair_iff hr]
    refine ⟨fun hp => absurd ⟨hp.2.1, hp.1⟩ hk, fun _ => ?_⟩
    unfold mergeKv
    rw [hr]
    dsimp only
    by_cases h1 : rc.fields.length > 2
    · rw [if_pos h1, if_neg (fun e => hk ⟨e, h1⟩)]
    · rw [if_neg h1]

/-- Some record below `r` matches. -/
def Under (h : Heap) (r key v : Word) : Prop := ∃ x, Below (view h) r x ∧ IsPair h x key v

theorem under_iff {r key v : Word} {rc : Rec} (hr : h.recs r = some rc) :
    Under h r key v ↔ IsPair h r key v ∨ ∃ w ∈ rc.fields, isRecVal w = true ∧ Under h w key v := by
  constructor
  · rintro ⟨x, ⟨n, hl⟩, hp⟩
    cases n with
    | zero => cases hl; exact .inl hp
    | succ n =>
      obtain ⟨fs, c, e1, e2, e3, e4⟩ := hl.head
      have : rc.fields = fs := by simpa [view, hr] using e1
      subst this
      exact .inr ⟨c, e2, e3, x, ⟨n, e4⟩, hp⟩
  · rintro (hp | ⟨w, h1, h2, x, ⟨n, hl⟩, hp⟩)
    · exact ⟨r, ⟨0, .here⟩, hp⟩
    · exact ⟨x, ⟨n + 1, hl.cons (show view h r = some rc.fields by simp [view, hr]) h1 h2⟩, hp⟩

theorem mergeFields_ok {mem : ResultSet.Mem} {f : RSet → Word → Option (Int × RSet)} {d : Nat} {U : Word → Prop} {rows : List Nat} : ∀ (l : List Word) {set : RSet}, Rep set rows →
    (∀ w ∈ l, isRecVal w = true → ∀ set, Rep set rows → (U w → Adds mem (f set w) rows [d]) ∧ (¬ U w → f set w = some (0, set))) →
    ((∃ w ∈ l, isRecVal w = true ∧ U w) → Adds mem (mergeFields f l set) rows [d]) ∧
    ((¬ ∃ w ∈ l, isRecVal w = true ∧ U w) → mergeFields f l set = some (0, set))
  | [], set, hs, hf => ⟨fun ⟨w, hw, _⟩ => by simp at hw, fun _ => rfl⟩
  | w :: l, set, hs, hf => by
    have ih := mergeFields_ok (mem := mem) (d := d) (U := U) l hs (fun w hw => hf w (List.mem_cons_of_mem _ hw))
    unfold mergeFields
    by_cases hr : isRecVal w = true
    · rw [if_pos hr]
      obtain ⟨g1, g2⟩ := hf w List.mem_cons_self hr set hs
      by_cases hu : U w
      · refine ⟨fun _ => ?_, fun hn => absurd ⟨w, List.mem_cons_self, hr, hu⟩ hn⟩
        obtain ⟨rc, s1, e1, e2⟩ := g1 hu
        rw [e1]
        have : rc ≠ 0 := by
          rcases e2 with ⟨a, _⟩ | ⟨a, _⟩
          · omega
          · rw [a]; simp
        dsimp only
        rw [if_pos this]
        exact ⟨rc, s1, rfl, e2⟩
      · rw [g2 hu]
        simp only [ne_eq, not_true_eq_false, if_false]
        refine ⟨fun ⟨x, hx, a, b⟩ => ih.1 ?_, fun hn => ih.2 ?_⟩
        · rcases List.mem_cons.1 hx with rfl | hx
          · exact absurd b hu
          · exact ⟨x, hx, a, b⟩
        · rintro ⟨x, hx, a, b⟩
          exact hn ⟨x, List.mem_cons_of_mem _ hx, a, b⟩
    · rw [if_neg hr]
      refine ⟨fun ⟨x, hx, a, b⟩ => ih.1 ?_, fun hn => ih.2 ?_⟩
      · rcases List.mem_cons.1 hx with rfl | hx
        · exact absurd a hr
        · exact ⟨x, hx, a, b⟩
      · rintro ⟨x, hx, a, b⟩
        exact hn ⟨x, List.mem_cons_of_mem _ hx, a, b⟩

theorem mergeRec_ok (hI : Inv C h) (hD : DocsOk h args) {mem : ResultSet.Mem} {a : Arg} {d : Word} (hd : IsDocument h d) {rows : List Nat} :
    ∀ (depth n : Nat) (r : Word) (set : RSet), depth + n = 7 → Links (view h) d r n → Rep set rows →
      (Under h r a.1 a.2 → Adds mem (mergeRec h mem a depth set r) rows [d.toNat]) ∧
      (¬ Under h r a.1 a.2 → mergeRec h mem a depth set r = some (0, set)) := by
  have hd0 : d.toNat ≠ 0 := by
    obtain ⟨rc, e, _⟩ := hd
    exact rec_ne_zero hI e
  intro depth
  induction depth with
  | zero =>
    intro n r set hn hl
    have := hD.shallow d r n hd hl
    omega
  | succ k ih =>
    intro n r set hn hl hs
    obtain ⟨rc, hrc, _⟩ := hD.data d r hd ⟨n, hl⟩
    have hfd := find_doc hI hD hd ⟨n, hl⟩
    obtain ⟨m1, m2⟩ := mergeKv_ok hI (mem := mem) (a := a) hrc (fun _ => ⟨d, hd0, hfd⟩) hs
    rw [under_iff hrc]
    unfold mergeRec
    by_cases hp : IsPair h r a.1 a.2
    · refine ⟨fun _ => ?_, fun hn => absurd (.inl hp) hn⟩
      obtain ⟨d', e, rc1, s1, e1, e2⟩ := m1 hp
      rw [hfd] at e
      cases e
      have : rc1 ≠ 0 := by
        rcases e2 with ⟨a, _⟩ | ⟨a, _⟩
        · omega
        · rw [a]; simp
      rw [e1]
      dsimp only
      rw [if_pos this]
      exact ⟨rc1, s1, rfl, e2⟩
    · rw [m2 hp]
      simp only [ne_eq, not_true_eq_false, if_false, hrc]
      have := mergeFields_ok (mem := mem) (f := mergeRec h mem a k) (d := d.toNat) (U := fun w => Under h w a.1 a.2) rc.fields hs
        (fun w hw hwr set hset => ih (n + 1) w set (by omega) (.step hl (by simp [view, hrc]) hw hwr) hset)
      refine ⟨fun hu => this.1 (hu.resolve_left hp), fun hn => this.2 (fun h => hn (.inr h))⟩

/-! ## Loops -/

/-- The loop over a list of records: `g r` is what record `r` contributes. -/
theorem fold_step {mem : ResultSet.Mem} {α : Type} {f : Option RSet → α → Option (Option RSet)} {g : α → List Nat} : ∀ (l : List α) {set : RSet} {rows : List Nat}, Rep set rows →
    (∀ x, f none x = some none) →
    (∀ x ∈ l, ∀ set rows, Rep set rows → (f (some set) x = some none ∧ ∃ n, mem.page n = false) ∨ ∃ s', f (some set) x = some (some s') ∧ Rep s' (rows ++ g x)) →
    (l.foldlM f (some set) = some none ∧ ∃ n, mem.page n = false) ∨ ∃ s', l.foldlM f (some set) = some (some s') ∧ Rep s' (rows ++ l.flatMap g)
  | [], set, rows, hs, _, _ => .inr ⟨set, rfl, by simpa using hs⟩
  | x :: l, set, rows, hs, hn, hf => by
    rw [List.foldlM_cons]
    rcases hf x List.mem_cons_self set rows hs with ⟨e, hm⟩ | ⟨s', e, hs'⟩
    · left
      rw [e]
      refine ⟨?_, hm⟩
      simp only [Option.bind_eq_bind, Option.bind_some]
      clear hf e
      induction l with
      | nil => rfl
      | cons y l ih => rw [List.foldlM_cons, hn]; exact ih
    · rw [e]
      simp only [Option.bind_eq_bind, Option.bind_some]
      have := fold_step (mem := mem) l hs' hn (fun y hy => hf y (List.mem_cons_of_mem _ hy))
      rw [List.flatMap_cons, ← List.append_assoc]
      exact this

theorem step_adds {mem : ResultSet.Mem} {f : RSet → Word → Option (Int × RSet)} {set : RSet} {r : Word} {rows g : List Nat} (h : Adds mem (f set r) rows g) :
    (step f (some set) r = some none ∧ ∃ n, mem.page n = false) ∨ ∃ s', step f (some set) r = some (some s') ∧ Rep s' (rows ++ g) := by
  obtain ⟨rc, s1, e, h⟩ := h
  unfold step
  dsimp only
  rw [e]
  rcases h with ⟨h1, h2⟩ | ⟨h1, h2⟩
  · exact .inl ⟨by simp [h1], h2⟩
  · refine .inr ⟨s1, ?_, h2⟩
    have : ¬ rc < 0 := by omega
    simp [this]

theorem step_none {mem : ResultSet.Mem} {f : RSet → Word → Option (Int × RSet)} {set : RSet} {r : Word} {rows : List Nat} (hs : Rep set rows) (h : f set r = some (0, set)) :
    (step f (some set) r = some none ∧ ∃ n, mem.page n = false) ∨ ∃ s', step f (some set) r = some (some s') ∧ Rep s' (rows ++ []) := by
  refine .inr ⟨set, ?_, by simpa using hs⟩
  unfold step
  dsimp only
  rw [h]
  simp

end WG.JsonQuery
