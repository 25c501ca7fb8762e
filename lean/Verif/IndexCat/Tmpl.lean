import Verif.IndexCat.Sort
import Mathlib.Tactic.ByContra
/-!
# Match records
-/
namespace WG.IndexCat
variable {κ : Type} {V : Vt κ} {P : κ → Prop}

theorem fix_nil (k : Nat) : fix V [] k = none := by simp [fix]

theorem fix_zero (a : κ) (m : List κ) : fix V (a :: m) 0 = if V.isVar a then none else some a := by
  simp only [fix, List.getElem?_cons_zero, Option.filter]
  by_cases h : V.isVar a = true
  · simp [h]
  · simp [h]

theorem fix_succ (a : κ) (m : List κ) (k : Nat) : fix V (a :: m) (k + 1) = fix V m k := by simp [fix]

theorem fix_some {m : List κ} {k : Nat} {v : κ} : fix V m k = some v ↔ m[k]? = some v ∧ V.isVar v = false := by
  simp only [fix, Option.filter_eq_some_iff, Bool.not_eq_true']

theorem fixedAt_iff {m : List κ} {k : Nat} : fixedAt V m k = true ↔ fix V m k ≠ none := by
  unfold fixedAt fix
  cases h : m[k]? with
  | none => simp
  | some v => cases h2 : V.isVar v <;> simp [Option.filter, h2]

theorem Alike.refl (h : VOk V P) {m : List κ} (hm : ∀ v ∈ m, P v) : Alike V m m := by
  intro k
  cases hk : fix V m k with
  | none => exact Or.inl ⟨rfl, rfl⟩
  | some v => exact Or.inr ⟨v, v, rfl, rfl, h.refl v (hm v (List.mem_of_getElem? (fix_some.mp hk).1))⟩

theorem fix_P {m : List κ} (hm : ∀ v ∈ m, P v) {k : Nat} {v : κ} (h : fix V m k = some v) : P v := hm v (List.mem_of_getElem? (fix_some.mp h).1)

theorem Alike.symm (h : VOk V P) {m m' : List κ} (hm : ∀ v ∈ m, P v) (hm' : ∀ v ∈ m', P v) (ha : Alike V m m') : Alike V m' m := by
  intro k
  rcases ha k with ⟨h1, h2⟩ | ⟨a, b, h1, h2, h3⟩
  · exact Or.inl ⟨h2, h1⟩
  · exact Or.inr ⟨b, a, h2, h1, h.symm a b (fix_P hm h1) (fix_P hm' h2) h3⟩

theorem Alike.trans (h : VOk V P) {m m' m'' : List κ} (hm : ∀ v ∈ m, P v) (hm' : ∀ v ∈ m', P v) (hm'' : ∀ v ∈ m'', P v) (ha : Alike V m m')
    (hb : Alike V m' m'') : Alike V m m'' := by
  intro k
  rcases ha k with ⟨h1, h2⟩ | ⟨a, b, h1, h2, h3⟩
  · rcases hb k with ⟨g1, g2⟩ | ⟨c, d, g1, g2, g3⟩
    · exact Or.inl ⟨h1, g2⟩
    · rw [h2] at g1; cases g1
  · rcases hb k with ⟨g1, g2⟩ | ⟨c, d, g1, g2, g3⟩
    · rw [h2] at g1; cases g1
    · rw [h2] at g1
      cases g1
      exact Or.inr ⟨a, d, h1, g2, h.trans a b d (fix_P hm h1) (fix_P hm' h2) (fix_P hm'' g2) h3 g3⟩

theorem Alike.of_fix (h : VOk V P) {m m' : List κ} (hm : ∀ v ∈ m, P v) (he : ∀ k, fix V m' k = fix V m k) : Alike V m' m := by
  intro k
  rw [he k]
  exact Alike.refl h hm k

theorem count_zero {m : List κ} (h : ∀ k, fix V m k = none) : fixedCount V m = 0 := by
  unfold fixedCount
  rw [List.countP_eq_zero]
  intro v hv
  obtain ⟨k, hk⟩ := List.mem_iff_getElem?.mp hv
  have := h k
  by_contra hc
  rw [fix, hk, Option.filter, if_pos hc] at this
  cases this

/-- Alike match records have the same number of fixed columns. -/
theorem alike_count : ∀ {m m' : List κ}, Alike V m m' → fixedCount V m = fixedCount V m'
  | [], m', h => by
    rw [count_zero (fun k => fix_nil k), count_zero]
    intro k
    rcases h k with ⟨_, h2⟩ | ⟨a, b, h1, _⟩
    · exact h2
    · rw [fix_nil] at h1; cases h1
  | a :: m, [], h => by
    rw [count_zero (fun k => fix_nil k), count_zero]
    intro k
    rcases h k with ⟨h2, _⟩ | ⟨a, b, _, h1, _⟩
    · exact h2
    · rw [fix_nil] at h1; cases h1
  | a :: m, b :: m', h => by
    have ht : Alike V m m' := fun k => by have := h (k + 1); rwa [fix_succ, fix_succ] at this
    have := alike_count ht
    have h0 := h 0
    rw [fix_zero, fix_zero] at h0
    unfold fixedCount at this ⊢
    rw [List.countP_cons, List.countP_cons, this]
    cases ha : V.isVar a <;> cases hb : V.isVar b <;> simp [ha, hb] at h0 ⊢

theorem trim_append (m : List κ) (a : κ) : trim V (m ++ [a]) = if V.isVar a then trim V m else m ++ [a] := by
  unfold trim
  rw [List.reverse_append, List.reverse_singleton, List.singleton_append, List.dropWhile_cons]
  cases V.isVar a <;> simp

theorem fix_append_var (m : List κ) (a : κ) (h : V.isVar a = true) (k : Nat) : fix V (m ++ [a]) k = fix V m k := by
  unfold fix
  rcases Nat.lt_trichotomy k m.length with hk | rfl | hk
  · rw [List.getElem?_append_left hk]
  · rw [List.getElem?_append_right (Nat.le_refl _), Nat.sub_self, List.getElem?_cons_zero, List.getElem?_eq_none (Nat.le_refl _)]
    simp [Option.filter, h]
  · rw [List.getElem?_eq_none (by simp; omega), List.getElem?_eq_none (by omega)]

theorem list_snoc (m : List κ) : m = [] ∨ ∃ l a, m = l ++ [a] := by
  rcases List.eq_nil_or_concat m with h | ⟨l, a, h⟩
  · exact Or.inl h
  · exact Or.inr ⟨l, a, by rw [h, List.concat_eq_append]⟩

theorem trim_spec : ∀ (n : Nat) (m : List κ), m.length = n →
    (∀ k, fix V (trim V m) k = fix V m k) ∧ (trim V m = [] ∨ ∃ l a, trim V m = l ++ [a] ∧ V.isVar a = false) ∧ ∀ v ∈ trim V m, v ∈ m
  | 0, m, h => by
    have := List.eq_nil_of_length_eq_zero h
    subst this
    exact ⟨fun _ => rfl, Or.inl rfl, fun _ h => h⟩
  | n + 1, m, h => by
    rcases list_snoc m with rfl | ⟨l, a, rfl⟩
    · cases h
    · have hl : l.length = n := by simpa using h
      obtain ⟨h1, h2, h3⟩ := trim_spec n l hl
      rw [trim_append]
      cases ha : V.isVar a
      · exact ⟨fun _ => rfl, Or.inr ⟨l, a, rfl, ha⟩, fun _ h => h⟩
      · exact ⟨fun k => by rw [if_pos rfl, h1, fix_append_var l a ha], h2, fun v hv => List.mem_append_left _ (h3 v hv)⟩

/-- A list that ends with a fixed value. -/
def Ends (V : Vt κ) (m : List κ) : Prop := ∃ l a, m = l ++ [a] ∧ V.isVar a = false

theorem trim_ends {m : List κ} (h : fixedCount V m ≠ 0) : Ends V (trim V m) := by
  obtain ⟨h1, h2, h3⟩ := trim_spec (V := V) m.length m rfl
  rcases h2 with h2 | h2
  · refine absurd (count_zero fun k => ?_) h
    rw [← h1 k, h2, fix_nil]
  · exact h2

theorem ends_last {m : List κ} (h : Ends V m) : ∃ v, fix V m (m.length - 1) = some v := by
  obtain ⟨l, a, rfl, ha⟩ := h
  exact ⟨a, fix_some.mpr ⟨by simp, ha⟩⟩

theorem ends_length {m m' : List κ} (h : Ends V m) (h' : Ends V m') (ha : Alike V m m') : m.length ≤ m'.length := by
  obtain ⟨v, hv⟩ := ends_last h
  rcases ha (m.length - 1) with ⟨h1, _⟩ | ⟨a, b, _, h2, _⟩
  · rw [hv] at h1; cases h1
  · have := (fix_some.mp h2).1
    have := (List.getElem?_eq_some_iff.mp this).1
    omega

theorem alike_tmplEq (m m' : List κ) (hl : m.length = m'.length) (ha : Alike V m m') : tmplEq V m m' = true := by
  unfold tmplEq
  rw [Bool.and_eq_true, decide_eq_true_eq]
  refine ⟨hl, ?_⟩
  rw [List.all_eq_true]
  intro y hy
  obtain ⟨k, hk⟩ := List.mem_iff_getElem?.mp hy
  rw [List.getElem?_zip_eq_some] at hk
  rcases ha k with ⟨h1, h2⟩ | ⟨a, b, h1, h2, h3⟩
  · rw [Bool.or_eq_true]
    left
    by_contra hc
    have : fix V m k = some y.1 := fix_some.mpr ⟨hk.1, by simpa using hc⟩
    rw [this] at h1; cases h1
  · have e1 := (fix_some.mp h1).1
    have e2 := (fix_some.mp h2).1
    rw [hk.1] at e1; rw [hk.2] at e2
    cases e1; cases e2
    rw [h3, Bool.or_true]

theorem tmplEq_count (h : VOk V P) : ∀ (m m' : List κ), (∀ v ∈ m, P v) → (∀ v ∈ m', P v) → tmplEq V m m' = true → fixedCount V m ≤ fixedCount V m'
  | [], [], _, _, _ => Nat.le_refl _
  | [], _ :: _, _, _, hq => by simp [tmplEq] at hq
  | _ :: _, [], _, _, hq => by simp [tmplEq] at hq
  | a :: m, b :: m', hm, hm', hq => by
    simp only [tmplEq, List.length_cons, List.zip_cons_cons, List.all_cons, Bool.and_eq_true, decide_eq_true_eq, Bool.or_eq_true] at hq
    have ht := tmplEq_count h m m' (fun v hv => hm v (List.mem_cons_of_mem _ hv)) (fun v hv => hm' v (List.mem_cons_of_mem _ hv))
      (by simp only [tmplEq, Bool.and_eq_true, decide_eq_true_eq]; exact ⟨by omega, hq.2.2⟩)
    unfold fixedCount at ht ⊢
    rw [List.countP_cons, List.countP_cons]
    cases ha : V.isVar a
    · have hs := hq.2.1.resolve_left (by simp [ha])
      have := h.var a b (hm a (List.mem_cons_self ..)) (hm' b (List.mem_cons_self ..)) hs
      rw [← this, ha]
      simpa using ht
    · simp only [Bool.not_true, Bool.false_eq_true, if_false]
      omega

theorem tmplEq_alike (h : VOk V P) : ∀ (m m' : List κ), (∀ v ∈ m, P v) → (∀ v ∈ m', P v) → tmplEq V m m' = true → fixedCount V m = fixedCount V m' →
    Alike V m m'
  | [], [], _, _, _, _ => fun k => Or.inl ⟨fix_nil k, fix_nil k⟩
  | [], _ :: _, _, _, hq, _ => by simp [tmplEq] at hq
  | _ :: _, [], _, _, hq, _ => by simp [tmplEq] at hq
  | a :: m, b :: m', hm, hm', hq, hc => by
    simp only [tmplEq, List.length_cons, List.zip_cons_cons, List.all_cons, Bool.and_eq_true, decide_eq_true_eq, Bool.or_eq_true] at hq
    have hmt : ∀ v ∈ m, P v := fun v hv => hm v (List.mem_cons_of_mem _ hv)
    have hmt' : ∀ v ∈ m', P v := fun v hv => hm' v (List.mem_cons_of_mem _ hv)
    have hqt : tmplEq V m m' = true := by simp only [tmplEq, Bool.and_eq_true, decide_eq_true_eq]; exact ⟨by omega, hq.2.2⟩
    have hle := tmplEq_count h m m' hmt hmt' hqt
    unfold fixedCount at hle hc
    rw [List.countP_cons, List.countP_cons] at hc
    cases ha : V.isVar a
    · have hs := hq.2.1.resolve_left (by simp [ha])
      have hb := h.var a b (hm a (List.mem_cons_self ..)) (hm' b (List.mem_cons_self ..)) hs
      rw [ha] at hb
      rw [ha, ← hb] at hc
      have ht := tmplEq_alike h m m' hmt hmt' hqt (by unfold fixedCount; simpa using hc)
      intro k
      cases k with
      | zero => rw [fix_zero, fix_zero, ha, ← hb]; exact Or.inr ⟨a, b, rfl, rfl, hs⟩
      | succ k => rw [fix_succ, fix_succ]; exact ht k
    · cases hb : V.isVar b
      · rw [ha, hb] at hc
        simp only [Bool.not_true, Bool.false_eq_true, if_false, Bool.not_false, if_true] at hc
        omega
      · rw [ha, hb] at hc
        have ht := tmplEq_alike h m m' hmt hmt' hqt (by unfold fixedCount; simpa using hc)
        intro k
        cases k with
        | zero => rw [fix_zero, fix_zero, ha, hb]; exact Or.inl ⟨rfl, rfl⟩
        | succ k => rw [fix_succ, fix_succ]; exact ht k

/-- The comparison with a template decides whether the match records are alike. -/
theorem tmpl_test (h : VOk V P) {m f : List κ} (hm : ∀ v ∈ m, P v) (hf : ∀ v ∈ f, P v) (hc : fixedCount V m ≠ 0) (he : Ends V f) :
    (fixedCount V f = fixedCount V m ∧ tmplEq V (trim V m) f = true) ↔ Alike V f m := by
  obtain ⟨h1, h2, h3⟩ := trim_spec (V := V) m.length m rfl
  have hmt : ∀ v ∈ trim V m, P v := fun v hv => hm v (h3 v hv)
  have hat : Alike V (trim V m) m := Alike.of_fix h hm h1
  have hct := alike_count hat
  constructor
  · rintro ⟨g1, g2⟩
    exact (Alike.symm h hmt hf (tmplEq_alike h _ _ hmt hf g2 (by omega))).trans h hf hmt hm hat
  · intro ha
    have ha' : Alike V (trim V m) f := hat.trans h hmt hm hf (ha.symm h hf hm)
    refine ⟨alike_count ha, alike_tmplEq _ _ ?_ ha'⟩
    exact Nat.le_antisymm (ends_length (trim_ends hc) he ha') (ends_length he (trim_ends hc) (ha'.symm h hmt hf))

theorem alike_rec (h : VOk V P) {m m' : List κ} (hm : ∀ v ∈ m, P v) (hm' : ∀ v ∈ m', P v) (ha : Alike V m m') : m.any V.isRec = m'.any V.isRec := by
  have key : ∀ {m m' : List κ}, (∀ v ∈ m, P v) → (∀ v ∈ m', P v) → Alike V m m' → m.any V.isRec = true → m'.any V.isRec = true := by
    intro m m' hm hm' ha hr
    obtain ⟨v, hv, hvr⟩ := List.any_eq_true.mp hr
    obtain ⟨k, hk⟩ := List.mem_iff_getElem?.mp hv
    have hfx : fix V m k = some v := fix_some.mpr ⟨hk, h.apart v hvr⟩
    rcases ha k with ⟨h1, _⟩ | ⟨a, b, h1, h2, h3⟩
    · rw [hfx] at h1; cases h1
    · rw [hfx] at h1; cases h1
      have hb := fix_some.mp h2
      exact List.any_eq_true.mpr ⟨b, List.mem_of_getElem? hb.1, by rw [← h.rcd v b (fix_P hm hfx) (fix_P hm' h2) h3]; exact hvr⟩
  rw [Bool.eq_iff_iff]
  exact ⟨key hm hm' ha, key hm' hm (ha.symm h hm hm')⟩

theorem count_pos {m : List κ} : fixedCount V m ≠ 0 ↔ ∃ v ∈ m, V.isVar v = false := by
  unfold fixedCount
  rw [← Nat.pos_iff_ne_zero, List.countP_pos_iff]
  simp

/-! ## The template list -/

/-- The list is sorted by the number of fixed columns. -/
def TSorted (tm : Nat → Tm κ) (l : List Nat) : Prop := l.Pairwise fun x y => (tm y).fixed ≤ (tm x).fixed

theorem findT_mem (tm : Nat → Tm κ) (m : List κ) (n : Nat) : ∀ (l : List Nat), findT V tm m n l ≠ 0 →
    findT V tm m n l ∈ l ∧ (tm (findT V tm m n l)).fixed = n ∧ tmplEq V m (tm (findT V tm m n l)).fields = true
  | [], h => absurd rfl h
  | x :: t, h => by
    rw [findT] at h ⊢
    by_cases h1 : (tm x).fixed = n
    · rw [if_pos h1] at h ⊢
      by_cases h2 : tmplEq V m (tm x).fields = true
      · rw [if_pos h2]; exact ⟨List.mem_cons_self .., h1, h2⟩
      · rw [if_neg h2] at h ⊢
        obtain ⟨g1, g2⟩ := findT_mem tm m n t h
        exact ⟨List.mem_cons_of_mem _ g1, g2⟩
    · rw [if_neg h1] at h ⊢
      by_cases h2 : (tm x).fixed < n
      · rw [if_pos h2] at h; exact absurd rfl h
      · rw [if_neg h2] at h ⊢
        obtain ⟨g1, g2⟩ := findT_mem tm m n t h
        exact ⟨List.mem_cons_of_mem _ g1, g2⟩

theorem findT_none (tm : Nat → Tm κ) (m : List κ) (n : Nat) : ∀ (l : List Nat), TSorted tm l → 0 ∉ l → findT V tm m n l = 0 →
    ∀ x ∈ l, ¬((tm x).fixed = n ∧ tmplEq V m (tm x).fields = true)
  | [], _, _, _ => fun _ h => by cases h
  | x :: t, hs, h0, h => by
    obtain ⟨hs1, hs2⟩ := List.pairwise_cons.mp hs
    have h0t : 0 ∉ t := fun h => h0 (List.mem_cons_of_mem _ h)
    rw [findT] at h
    intro y hy
    by_cases h1 : (tm x).fixed = n
    · rw [if_pos h1] at h
      by_cases h2 : tmplEq V m (tm x).fields = true
      · rw [if_pos h2] at h
        subst h
        exact absurd (List.mem_cons_self ..) h0
      · rw [if_neg h2] at h
        rcases List.mem_cons.mp hy with rfl | hy
        · exact fun h => h2 h.2
        · exact findT_none tm m n t hs2 h0t h y hy
    · rw [if_neg h1] at h
      by_cases h2 : (tm x).fixed < n
      · rintro ⟨h3, _⟩
        rcases List.mem_cons.mp hy with rfl | hy
        · omega
        · have := hs1 y hy; omega
      · rw [if_neg h2] at h
        rcases List.mem_cons.mp hy with rfl | hy
        · exact fun h => h1 h.1
        · exact findT_none tm m n t hs2 h0t h y hy

theorem placeT_perm (tm : Nat → Tm κ) (n new : Nat) : ∀ (l : List Nat), (placeT tm n new l).Perm (new :: l)
  | [] => List.Perm.refl _
  | x :: t => by
    rw [placeT]
    split_ifs
    · exact List.Perm.refl _
    · exact ((placeT_perm tm n new t).cons x).trans (List.Perm.swap ..)

theorem placeT_sorted (tm : Nat → Tm κ) (n new : Nat) (hn : (tm new).fixed = n) : ∀ (l : List Nat), TSorted tm l → TSorted tm (placeT tm n new l)
  | [], _ => List.pairwise_singleton ..
  | x :: t, hs => by
    obtain ⟨hs1, hs2⟩ := List.pairwise_cons.mp hs
    rw [placeT]
    split_ifs with h
    · refine List.Pairwise.cons (fun y hy => ?_) hs
      rcases List.mem_cons.mp hy with rfl | hy
      · omega
      · have := hs1 y hy; omega
    · refine List.Pairwise.cons (fun y hy => ?_) (placeT_sorted tm n new hn t hs2)
      rcases List.mem_cons.mp ((placeT_perm tm n new t).mem_iff.mp hy) with rfl | hy
      · omega
      · exact hs1 y hy

theorem placeT_congr {tm tm' : Nat → Tm κ} (n new : Nat) : ∀ (l : List Nat), (∀ x ∈ l, (tm x).fixed = (tm' x).fixed) → placeT tm n new l = placeT tm' n new l
  | [], _ => rfl
  | x :: t, h => by
    rw [placeT, placeT, h x (List.mem_cons_self ..), placeT_congr n new t fun y hy => h y (List.mem_cons_of_mem _ hy)]

end WG.IndexCat
