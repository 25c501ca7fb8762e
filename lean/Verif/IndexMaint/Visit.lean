import Verif.IndexMaint.Spec
import Mathlib.Tactic.Tauto
/-! # Which index entries the walk over the parents of a record reaches -/
namespace WG.Recs

variable {ι : Type} {C : Prop} {h : Heap}

/-- Apply an index operation to places one after the other, until one fails. -/
def runOps (op : ι → Word → Nat → ι × Int) : List (Word × Nat) → ι → ι × Bool
  | [], x => (x, true)
  | a :: t, x =>
    let y := op x a.1 a.2
    if y.2 < -1 then (y.1, false) else runOps op t y.1

theorem runOps_append (op : ι → Word → Nat → ι × Int) : ∀ (l l' : List (Word × Nat)) (x : ι),
    runOps op (l ++ l') x = if (runOps op l x).2 then runOps op l' (runOps op l x).1 else runOps op l x
  | [], l', x => by simp [runOps]
  | a :: t, l', x => by
    simp only [List.cons_append, runOps]
    by_cases h1 : (op x a.1 a.2).2 < -1
    · simp [h1]
    · simp only [if_neg h1]
      exact runOps_append op t l' _

/-- The columns visited by `visitCols`. -/
def colsFrom (B : Nat → Bool) (value : Word) : List Word → Nat → List Nat
  | [], _ => []
  | w :: t, col => if col ≤ 127 ∧ w = value ∧ B col then col :: colsFrom B value t (col + 1) else colsFrom B value t (col + 1)

theorem mem_colsFrom {B : Nat → Bool} {value : Word} : ∀ {l : List Word} {col c : Nat},
    c ∈ colsFrom B value l col ↔ col ≤ c ∧ c ≤ 127 ∧ B c = true ∧ l[c - col]? = some value
  | [], col, c => by simp [colsFrom]
  | w :: t, col, c => by
    have ih : c ∈ colsFrom B value t (col + 1) ↔ col + 1 ≤ c ∧ c ≤ 127 ∧ B c = true ∧ t[c - (col + 1)]? = some value := mem_colsFrom
    have hs : col + 1 ≤ c → (w :: t)[c - col]? = t[c - (col + 1)]? := by
      intro hc
      rw [show c - col = (c - (col + 1)) + 1 by omega, List.getElem?_cons_succ]
    simp only [colsFrom]
    by_cases hc : col = c
    · subst hc
      split_ifs with h1
      · simp only [List.mem_cons, true_or, true_iff, Nat.sub_self, List.getElem?_cons_zero, Option.some.injEq]
        exact ⟨Nat.le_refl _, h1.1, h1.2.2, h1.2.1⟩
      · rw [ih]
        simp only [Nat.sub_self, List.getElem?_cons_zero, Option.some.injEq]
        constructor
        · rintro ⟨a, _⟩; omega
        · rintro ⟨_, a, b, c⟩; exact absurd ⟨a, c, b⟩ h1
    · have : c ∈ colsFrom B value t (col + 1) ↔ col ≤ c ∧ c ≤ 127 ∧ B c = true ∧ (w :: t)[c - col]? = some value := by
        rw [ih]
        constructor
        · rintro ⟨a, b, d, e⟩; exact ⟨by omega, b, d, by rw [hs a]; exact e⟩
        · rintro ⟨a, b, d, e⟩; exact ⟨by omega, b, d, by rw [← hs (by omega)]; exact e⟩
      split_ifs
      · rw [List.mem_cons, this]
        constructor
        · rintro (rfl | a)
          · exact absurd rfl hc
          · exact a
        · exact Or.inr
      · exact this

theorem nodup_colsFrom {B : Nat → Bool} {value : Word} : ∀ (l : List Word) (col : Nat), (colsFrom B value l col).Nodup
  | [], _ => List.nodup_nil
  | w :: t, col => by
    simp only [colsFrom]
    split_ifs
    · refine List.nodup_cons.2 ⟨fun hm => ?_, nodup_colsFrom t (col + 1)⟩
      have := (mem_colsFrom.1 hm).1
      omega
    · exact nodup_colsFrom t (col + 1)

/-- The operation does not change which columns are indexed. -/
def KeepsCols (X : Ix ι) (op : ι → Word → Nat → ι × Int) : Prop := ∀ x p c, X.byCol (op x p c).1 = X.byCol x

theorem runOps_cols {X : Ix ι} {op : ι → Word → Nat → ι × Int} (hk : KeepsCols X op) : ∀ (l : List (Word × Nat)) (x : ι), X.byCol (runOps op l x).1 = X.byCol x
  | [], _ => rfl
  | a :: t, x => by
    simp only [runOps]
    split_ifs
    · exact hk _ _ _
    · rw [runOps_cols hk t]; exact hk _ _ _

theorem visitCols_eq {X : Ix ι} {op : ι → Word → Nat → ι × Int} (hk : KeepsCols X op) (r value : Word) : ∀ (l : List Word) (col : Nat) (x : ι),
    visitCols X op r value l col x = runOps op ((colsFrom (X.byCol x) value l col).map fun c => (r, c)) x
  | [], _, _ => rfl
  | w :: t, col, x => by
    simp only [visitCols, colsFrom]
    split_ifs with h1 h2
    · simp only [List.map_cons, runOps, if_pos h2]
    · simp only [List.map_cons, runOps, if_neg h2]
      rw [visitCols_eq hk r value t, hk]
    · exact visitCols_eq hk r value t (col + 1) x

/-- The indexed columns of record `q` that hold `value`, for data records. -/
def colsOf (h : Heap) (B : Nat → Bool) (value q : Word) : List (Word × Nat) :=
  match h.recs q with
  | none => []
  | some rc => if rc.special then [] else (colsFrom B value rc.fields 0).map fun c => (q, c)

/-- The places visited: the columns of the parents, of their parents, and so on. -/
def places (h : Heap) (B : Nat → Bool) (par : Word → List Word) : Nat → Word → List (Word × Nat)
  | 0, r => (par r).flatMap (colsOf h B r)
  | d + 1, r => (par r).flatMap fun q => colsOf h B r q ++ places h B par d q

/-- The places visited above `r`. -/
def above (h : Heap) (B : Nat → Bool) (par : Word → List Word) : Nat → Word → List (Word × Nat)
  | 0, _ => []
  | d + 1, r => places h B par d r

/-- `par` lists the parents of every record as its backlink chain does. -/
def Pars (h : Heap) (par : Word → List Word) : Prop :=
  ∀ c rc, h.recs c = some rc → ∃ bl, Chain (cnext h) rc.back bl ∧ par c = bl.map (carOf h) ∧ ∀ p, (par c).count p = nref h p c

theorem Inv.pars (hI : Inv C h) : ∃ par, Pars h par := by
  have : ∀ c, ∃ l : List Word, ∀ rc, h.recs c = some rc → ∃ bl, Chain (cnext h) rc.back bl ∧ l = bl.map (carOf h) ∧ ∀ p, l.count p = nref h p c := by
    intro c
    cases hc : h.recs c with
    | none => exact ⟨[], fun rc e => by cases e⟩
    | some rc =>
      obtain ⟨bl, b1, b2⟩ := hI.parents hc
      exact ⟨bl.map (carOf h), fun rc' e => by cases e; exact ⟨bl, b1, rfl, b2⟩⟩
  exact ⟨fun c => (this c).choose, fun c rc hc => (this c).choose_spec rc hc⟩

theorem Pars.mem {par : Word → List Word} (hp : Pars h par) {c p : Word} {rc : Rec} (hc : h.recs c = some rc) :
    p ∈ par c ↔ ∃ j, (view h).field p j = some c := by
  obtain ⟨bl, _, _, b3⟩ := hp c rc hc
  rw [← List.count_pos_iff, b3]
  constructor
  · intro hn
    obtain ⟨rp, e1, e2⟩ := nref_pos hn
    obtain ⟨j, hj⟩ := List.mem_iff_getElem?.1 e2
    exact ⟨j, by simp [Table.field, view, e1, hj]⟩
  · rintro ⟨j, hj⟩
    unfold nref
    cases e1 : h.recs p with
    | none => simp [Table.field, view, e1] at hj
    | some rp =>
      simp only [Table.field, view, e1, Option.map_some, Option.bind_some] at hj
      simpa using List.count_pos_iff.2 (List.mem_of_getElem? hj)

theorem runList_flat {f : ι → Word → Option (ι × Bool)} {op : ι → Word → Nat → ι × Int} {g : Word → List (Word × Nat)} {K : ι → Prop}
    (hK : ∀ x p c, K x → K (op x p c).1) : ∀ (l : List Word) (x : ι), K x →
    (∀ q ∈ l, ∀ y, K y → f y q = some (runOps op (g q) y)) → runList f l x = some (runOps op (l.flatMap g) x)
  | [], x, _, _ => rfl
  | q :: t, x, hx, hf => by
    rw [runList, hf q (by simp) x hx, List.flatMap_cons, runOps_append]
    have hk : ∀ (l : List (Word × Nat)) (x : ι), K x → K (runOps op l x).1 := by
      intro l
      induction l with
      | nil => intro x hx; exact hx
      | cons a t ih =>
        intro x hx
        simp only [runOps]
        split_ifs
        · exact hK _ _ _ hx
        · exact ih _ (hK _ _ _ hx)
    have := hk (g q) x hx
    revert this
    generalize runOps op (g q) x = y
    obtain ⟨y, b⟩ := y
    intro this
    cases b with
    | false => rfl
    | true =>
      simp only [if_true]
      exact runList_flat hK t y this fun q' hq' => hf q' (by simp [hq'])

theorem visitParents_eq {X : Ix ι} {op : ι → Word → Nat → ι × Int} (hk : KeepsCols X op) {B : Nat → Bool} {par : Word → List Word}
    (hp : Pars h par) : ∀ (d : Nat) (value r : Word) (rc : Rec) (x : ι), h.recs r = some rc → X.byCol x = B →
    visitParents X op h d value x r = some (runOps op (colsOf h B value r ++ above h B par d r) x) := by
  intro d
  induction d with
  | zero =>
    intro value r rc x hr hx
    simp only [visitParents, hr, colsOf, above, List.append_nil]
    split_ifs with h1 h2 <;> first | rfl | (simp_all; done) | (rw [visitCols_eq hk, hx])
    all_goals simp_all
  | succ d ih =>
    intro value r rc x hr hx
    have h0 : (if rc.special = true then (x, true) else visitCols X op r value rc.fields 0 x) = runOps op (colsOf h B value r) x := by
      simp only [colsOf, hr]
      split_ifs
      · rfl
      · rw [visitCols_eq hk, hx]
    simp only [visitParents, hr]
    rw [h0, runOps_append]
    have hB := (runOps_cols hk (colsOf h B value r) x).trans hx
    revert hB
    generalize runOps op (colsOf h B value r) x = y
    intro hB
    split_ifs with h1 h2
    · obtain ⟨bl, b1, b2, b3⟩ := hp r rc hr
      rw [h2] at b1
      have : bl = [] := (Chain.nil_iff b1).1 rfl
      have hpr : par r = [] := by rw [b2, this]; rfl
      cases d <;> simp only [above, places, hpr, List.flatMap_nil, runOps] <;> rw [← h1]
    · obtain ⟨bl, b1, b2, b3⟩ := hp r rc hr
      rw [visitChain_eq _ bl walkFuel _ _ (fun e => h2 ((Chain.nil_iff b1).2 e)) b1 (Nat.le_of_lt b1.length_lt), ← b2]
      have hlive : ∀ q ∈ par r, ∃ rq, h.recs q = some rq := by
        intro q hq
        have : 0 < nref h q r := by rw [← b3]; exact List.count_pos_iff.2 hq
        obtain ⟨rq, e, _⟩ := nref_pos this
        exact ⟨rq, e⟩
      have key := runList_flat (K := fun x => X.byCol x = B) (f := visitParents X op h d r) (op := op)
        (g := fun q => colsOf h B r q ++ above h B par d q)
        (fun x p c hx => (hk x p c).trans hx) (par r) y.1 hB (fun q hq y hy => by
          obtain ⟨rq, e⟩ := hlive q hq
          exact ih r q rq y e hy)
      rw [key]
      cases d <;> simp [places, above]
    · rfl

/-- The walk over all ancestors of `r`. -/
theorem visitAll_eq (hI : Inv C h) {X : Ix ι} {op : ι → Word → Nat → ι × Int} (hk : KeepsCols X op) {par : Word → List Word}
    (hp : Pars h par) (d : Nat) {r : Word} {rc : Rec} (x : ι) (hr : h.recs r = some rc) (h0 : rc.back ≠ 0#64) :
    visitChain h (visitParents X op h d r) walkFuel rc.back x = some (runOps op (places h (X.byCol x) par d r) x) := by
  obtain ⟨bl, b1, b2, b3⟩ := hp r rc hr
  rw [visitChain_eq _ bl walkFuel _ _ (fun e => h0 ((Chain.nil_iff b1).2 e)) b1 (Nat.le_of_lt b1.length_lt), ← b2]
  have hlive : ∀ q ∈ par r, ∃ rq, h.recs q = some rq := by
    intro q hq
    have : 0 < nref h q r := by rw [← b3]; exact List.count_pos_iff.2 hq
    obtain ⟨rq, e, _⟩ := nref_pos this
    exact ⟨rq, e⟩
  have key := runList_flat (K := fun y => X.byCol y = X.byCol x) (f := visitParents X op h d r) (op := op)
    (g := fun q => colsOf h (X.byCol x) r q ++ above h (X.byCol x) par d q)
    (fun x p c hx => (hk x p c).trans hx) (par r) x rfl (fun q hq y hy => by
      obtain ⟨rq, e⟩ := hlive q hq
      exact visitParents_eq hk hp d r q rq y e hy)
  rw [key]
  cases d <;> simp [places, above]

/-! ### The places as chains of references -/

theorem leads_snoc {T : Table} {r q : Word} {j : Nat} : ∀ {L : List (Word × Nat)},
    Leads T r (L ++ [(q, j)]) ↔ T.field q j = some r ∧ (L = [] ∨ Leads T q L)
  | [] => by simp [Leads]
  | [(p, c)] => by simp [Leads]; tauto
  | (p, c) :: (p', c') :: t => by
    have ih : Leads T r (((p', c') :: t) ++ [(q, j)]) ↔ _ := leads_snoc
    simp only [List.cons_append] at ih
    simp only [List.cons_append, Leads, ih]
    simp
    tauto

theorem leads_last {T : Table} {r : Word} {L : List (Word × Nat)} (hl : Leads T r L) : ∃ A q j, L = A ++ [(q, j)] := by
  rcases List.eq_nil_or_concat L with rfl | ⟨A, ⟨q, j⟩, e⟩
  · exact absurd hl (by simp [Leads])
  · exact ⟨A, q, j, by simpa using e⟩

theorem mem_colsOf {B : Nat → Bool} {value q p : Word} {c : Nat} : (p, c) ∈ colsOf h B value q ↔
    p = q ∧ c ≤ 127 ∧ B c = true ∧ (view h).field p c = some value ∧ ∃ rc, h.recs p = some rc ∧ rc.special = false := by
  unfold colsOf
  cases hq : h.recs q with
  | none =>
    simp only [List.not_mem_nil, false_iff]
    rintro ⟨rfl, _, _, _, rc, e, _⟩
    rw [hq] at e; cases e
  | some rc =>
    simp only
    split_ifs with hs
    · simp only [List.not_mem_nil, false_iff]
      rintro ⟨rfl, _, _, _, rc', e, e2⟩
      rw [hq] at e; cases e
      rw [hs] at e2; cases e2
    · simp only [List.mem_map, Prod.mk.injEq, mem_colsFrom, Nat.sub_zero]
      constructor
      · rintro ⟨c', ⟨_, a, b, d⟩, rfl, rfl⟩
        exact ⟨rfl, a, b, by simp [Table.field, view, hq, d], rc, hq, by simpa using hs⟩
      · rintro ⟨rfl, a, b, d, _⟩
        exact ⟨c, ⟨by omega, a, b, by simpa [Table.field, view, hq] using d⟩, rfl, rfl⟩

/-- The places visited are those that lead to `r`. -/
theorem mem_places {B : Nat → Bool} {par : Word → List Word} (hp : Pars h par) : ∀ (d : Nat) {r p : Word} {rc : Rec} {c : Nat}, h.recs r = some rc →
    ((p, c) ∈ places h B par d r ↔ (∃ rp, h.recs p = some rp ∧ rp.special = false) ∧ c ≤ 127 ∧ B c = true ∧
      ∃ A, A.length ≤ d ∧ Leads (view h) r ((p, c) :: A)) := by
  intro d
  induction d with
  | zero =>
    intro r p rc c hr
    simp only [places, List.mem_flatMap, mem_colsOf]
    constructor
    · rintro ⟨q, hq, rfl, a, b, e, f⟩
      exact ⟨f, a, b, [], by simp, e⟩
    · rintro ⟨f, a, b, A, hA, e⟩
      have : A = [] := List.eq_nil_of_length_eq_zero (by omega)
      subst this
      exact ⟨p, (hp.mem hr).2 ⟨c, e⟩, rfl, a, b, e, f⟩
  | succ d ih =>
    intro r p rc c hr
    simp only [places, List.mem_flatMap, List.mem_append, mem_colsOf]
    constructor
    · rintro ⟨q, hq, ⟨rfl, a, b, e, f⟩ | hm⟩
      · exact ⟨f, a, b, [], by simp, e⟩
      · obtain ⟨j, hj⟩ := (hp.mem hr).1 hq
        cases hqr : h.recs q with
        | none => simp [Table.field, view, hqr] at hj
        | some rq =>
          obtain ⟨f, a, b, A, hA, e⟩ := (ih hqr).1 hm
          exact ⟨f, a, b, A ++ [(q, j)], by simp; omega, (leads_snoc (L := (p, c) :: A)).2 ⟨hj, Or.inr e⟩⟩
    · rintro ⟨f, a, b, A, hA, e⟩
      rcases List.eq_nil_or_concat A with rfl | ⟨A', ⟨q, j⟩, e2⟩
      · exact ⟨p, (hp.mem hr).2 ⟨c, e⟩, Or.inl ⟨rfl, a, b, e, f⟩⟩
      · have e3 : A = A' ++ [(q, j)] := by simpa using e2
        subst e3
        have e4 := (leads_snoc (L := (p, c) :: A')).1 e
        rcases e4 with ⟨hj, e5 | e5⟩
        · cases e5
        · refine ⟨q, (hp.mem hr).2 ⟨j, hj⟩, Or.inr ?_⟩
          cases hqr : h.recs q with
          | none => simp [Table.field, view, hqr] at hj
          | some rq => exact (ih hqr).2 ⟨f, a, b, A', by simp at hA; omega, e5⟩

theorem count_flatMap_le {α β} [DecidableEq α] [BEq β] [LawfulBEq β] {f : α → List β} {x : β} : ∀ {l : List α}, (∀ q ∈ l, (f q).count x ≤ 1) →
    (∀ q ∈ l, ∀ q' ∈ l, x ∈ f q → x ∈ f q' → q = q') → (∀ q ∈ l, x ∈ f q → l.count q ≤ 1) → (l.flatMap f).count x ≤ 1
  | [], _, _, _ => by simp
  | a :: l, h1, h2, h3 => by
    rw [List.flatMap_cons, List.count_append]
    by_cases hx : x ∈ f a
    · have hz : (l.flatMap f).count x = 0 := by
        rw [List.count_eq_zero]
        intro hm
        obtain ⟨q, hq, hxq⟩ := List.mem_flatMap.1 hm
        have := h2 a (by simp) q (by simp [hq]) hx hxq
        subst this
        have h4 := h3 a (by simp) hx
        rw [List.count_cons_self] at h4
        have := List.count_pos_iff.2 hq
        omega
      have := h1 a (by simp)
      omega
    · rw [List.count_eq_zero.2 hx, Nat.zero_add]
      refine count_flatMap_le (fun q hq => h1 q (by simp [hq])) (fun q hq q' hq' => h2 q (by simp [hq]) q' (by simp [hq'])) ?_
      intro q hq hxq
      have := h3 q (by simp [hq]) hxq
      rw [List.count_cons] at this
      omega

theorem two_cols {l : List Word} {w : Word} (hc : 2 ≤ l.count w) (c : Nat) : ∃ j, j ≠ c ∧ l[j]? = some w := by
  induction l generalizing c with
  | nil => simp at hc
  | cons a l ih =>
    rw [List.count_cons] at hc
    cases c with
    | zero =>
      have : 0 < l.count w := by split_ifs at hc <;> omega
      obtain ⟨j, hj⟩ := List.mem_iff_getElem?.1 (List.count_pos_iff.1 this)
      exact ⟨j + 1, by omega, by simpa using hj⟩
    | succ c =>
      by_cases ha : a = w
      · exact ⟨0, by omega, by simp [ha]⟩
      · have : (a == w) = false := by simpa using ha
        rw [this] at hc
        obtain ⟨j, hj, e⟩ := ih (by simpa using hc) c
        exact ⟨j + 1, by omega, by simpa using e⟩

theorem nref_two {p r : Word} (hn : 2 ≤ nref h p r) (c : Nat) : ∃ j, j ≠ c ∧ (view h).field p j = some r := by
  unfold nref at hn
  cases e : h.recs p with
  | none => simp [e] at hn
  | some rp =>
    rw [e] at hn
    obtain ⟨j, hj, e2⟩ := two_cols (by simpa using hn) c
    exact ⟨j, hj, by simp [Table.field, view, e, e2]⟩

theorem nodup_colsOf {B : Nat → Bool} {value q : Word} : (colsOf h B value q).Nodup := by
  unfold colsOf
  split
  · exact List.nodup_nil
  · split_ifs
    · exact List.nodup_nil
    · exact (nodup_colsFrom _ _).map fun a b e => (Prod.mk.inj e).2

/-- A place that leads to `r` in one way is visited once. -/
theorem places_once {B : Nat → Bool} {par : Word → List Word} (hp : Pars h par) {p : Word} {c : Nat} : ∀ (d : Nat) {r : Word} {rc : Rec}, h.recs r = some rc →
    (∀ j A A', Leads (view h) r ((p, c) :: A) → Leads (view h) r ((p, j) :: A') → A.length ≤ d → A'.length ≤ d →
      (view h).field p c = (view h).field p j → c = j ∧ A = A') → (places h B par d r).count (p, c) ≤ 1 := by
  intro d
  induction d with
  | zero =>
    intro r rc hr hU
    refine count_flatMap_le (fun q _ => List.nodup_iff_count_le_one.1 nodup_colsOf _) ?_ ?_
    · intro q _ q' _ h1 h2
      exact (mem_colsOf.1 h1).1.symm.trans (mem_colsOf.1 h2).1
    · intro q _ h1
      obtain ⟨rfl, a, b, e, f⟩ := mem_colsOf.1 h1
      obtain ⟨bl, _, _, b3⟩ := hp r rc hr
      rw [b3]
      by_contra hn
      obtain ⟨j, hj, e2⟩ := nref_two (show 2 ≤ nref h p r by omega) c
      exact hj (hU j [] [] e e2 (by simp) (by simp) (e.trans e2.symm)).1.symm
  | succ d ih =>
    intro r rc hr hU
    have live : ∀ {q j}, (view h).field q j = some r → ∃ rq, h.recs q = some rq := by
      intro q j hj
      cases hqr : h.recs q with
      | none => simp [Table.field, view, hqr] at hj
      | some rq => exact ⟨rq, rfl⟩
    refine count_flatMap_le (fun q hq => ?_) ?_ ?_
    · obtain ⟨j, hj⟩ := (hp.mem hr).1 hq
      obtain ⟨rq, hqr⟩ := live hj
      rw [List.count_append]
      have h1 : (colsOf h B r q).count (p, c) ≤ 1 := List.nodup_iff_count_le_one.1 nodup_colsOf _
      have h2 : (places h B par d q).count (p, c) ≤ 1 := by
        refine ih hqr ?_
        intro j' A A' l1 l2 s1 s2 he
        have := hU j' (A ++ [(q, j)]) (A' ++ [(q, j)]) ((leads_snoc (L := (p, c) :: A)).2 ⟨hj, Or.inr l1⟩)
          ((leads_snoc (L := (p, j') :: A')).2 ⟨hj, Or.inr l2⟩) (by simp; omega) (by simp; omega) he
        exact ⟨this.1, List.append_cancel_right this.2⟩
      by_contra hn
      have m1 : (p, c) ∈ colsOf h B r q := List.count_pos_iff.1 (by omega)
      have m2 : (p, c) ∈ places h B par d q := List.count_pos_iff.1 (by omega)
      obtain ⟨rfl, _, _, e, _⟩ := mem_colsOf.1 m1
      obtain ⟨_, _, _, A, hA, e2⟩ := (mem_places hp d hqr).1 m2
      have := (hU c [] (A ++ [(p, j)]) e ((leads_snoc (L := (p, c) :: A)).2 ⟨hj, Or.inr e2⟩) (by simp) (by simp; omega) rfl).2
      simp at this
    · -- where the chain enters `r`
      have enter : ∀ q ∈ par r, (p, c) ∈ colsOf h B r q ++ places h B par d q → ∃ A j, A.length ≤ d + 1 ∧ Leads (view h) r ((p, c) :: A) ∧
          ((p, c) :: A).getLast? = some (q, j) := by
        intro q hq hm
        rcases List.mem_append.1 hm with hm | hm
        · obtain ⟨rfl, _, _, e, _⟩ := mem_colsOf.1 hm
          exact ⟨[], c, by simp, e, rfl⟩
        · obtain ⟨j, hj⟩ := (hp.mem hr).1 hq
          obtain ⟨rq, hqr⟩ := live hj
          obtain ⟨_, _, _, A, hA, e2⟩ := (mem_places hp d hqr).1 hm
          refine ⟨A ++ [(q, j)], j, by simp; omega, (leads_snoc (L := (p, c) :: A)).2 ⟨hj, Or.inr e2⟩, ?_⟩
          rw [← List.cons_append, List.getLast?_concat]
      intro q hq q' hq' h1 h2
      obtain ⟨A, j, a1, a2, a3⟩ := enter q hq h1
      obtain ⟨A', j', b1, b2, b3⟩ := enter q' hq' h2
      have := (hU c A A' a2 b2 a1 b1 rfl).2
      subst this
      rw [a3] at b3
      exact (Prod.mk.inj (Option.some.inj b3)).1
    · intro q hq hm
      obtain ⟨bl, _, _, b3⟩ := hp r rc hr
      rw [b3]
      by_contra hn
      rcases List.mem_append.1 hm with hm | hm
      · obtain ⟨rfl, _, _, e, _⟩ := mem_colsOf.1 hm
        obtain ⟨j, hj, e2⟩ := nref_two (show 2 ≤ nref h p r by omega) c
        exact hj (hU j [] [] e e2 (by simp) (by simp) (e.trans e2.symm)).1.symm
      · obtain ⟨j, hj⟩ := (hp.mem hr).1 hq
        obtain ⟨rq, hqr⟩ := live hj
        obtain ⟨_, _, _, A, hA, e2⟩ := (mem_places hp d hqr).1 hm
        obtain ⟨j', hj', e3⟩ := nref_two (show 2 ≤ nref h q r by omega) j
        have := (hU c (A ++ [(q, j)]) (A ++ [(q, j')]) ((leads_snoc (L := (p, c) :: A)).2 ⟨hj, Or.inr e2⟩)
          ((leads_snoc (L := (p, c) :: A)).2 ⟨e3, Or.inr e2⟩) (by simp; omega) (by simp; omega) rfl).2
        have h4 := List.append_cancel_left this
        simp at h4
        exact hj' h4.symm

end WG.Recs
