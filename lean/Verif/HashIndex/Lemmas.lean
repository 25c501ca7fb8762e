import Verif.HashIndex.Spec
/-!
# Lemmas about the hash table
-/
namespace WG.HashIndex

/-- No two buckets of a chain have the same key. -/
def TInv (T : Table) : Prop := ∀ i, ((T.chain i).map Bucket.key).Nodup

theorem findBucket_key {k : Key} {l : List Bucket} {b : Bucket} (h : findBucket k l = some b) : b.key = k ∧ b ∈ l := by
  induction l with
  | nil => cases h
  | cons x l ih =>
    simp only [findBucket] at h
    by_cases hx : x.key = k
    · rw [if_pos hx] at h
      cases h
      exact ⟨hx, List.mem_cons_self⟩
    · rw [if_neg hx] at h
      exact ⟨(ih h).1, List.mem_cons_of_mem _ (ih h).2⟩

theorem findBucket_none {k : Key} {l : List Bucket} : findBucket k l = none ↔ k ∉ l.map Bucket.key := by
  induction l with
  | nil => simp [findBucket]
  | cons x l ih =>
    simp only [findBucket, List.map_cons, List.mem_cons]
    by_cases hx : x.key = k
    · simp [hx]
    · rw [if_neg hx, ih]
      exact ⟨fun h g => g.elim (fun e => hx e.symm) h, fun h g => h (Or.inr g)⟩

theorem findBucket_setRows {k k' : Key} {rows : List Word} {l : List Bucket} :
    (findBucket k' (setRows k rows l)).map Bucket.rows = if k' = k then (findBucket k l).map (fun _ => rows) else (findBucket k' l).map Bucket.rows := by
  induction l with
  | nil => simp [findBucket, setRows]
  | cons x l ih =>
    by_cases hx : x.key = k
    · by_cases hk : k' = k
      · subst hk
        simp [setRows, findBucket, hx]
      · simp [setRows, findBucket, hx, hk, Ne.symm hk]
    · by_cases hx' : x.key = k'
      · have : k' ≠ k := fun e => hx (hx'.trans e)
        simp [setRows, findBucket, hx, hx', this]
      · rw [setRows, if_neg hx]
        simp only [findBucket, if_neg hx, if_neg hx']
        exact ih

theorem setRows_keys (k : Key) (rows : List Word) (l : List Bucket) : (setRows k rows l).map Bucket.key = l.map Bucket.key := by
  induction l with
  | nil => rfl
  | cons x l ih =>
    by_cases hx : x.key = k
    · simp [setRows, hx]
    · simp [setRows, hx, ih]

theorem dropBucket_sub (k : Key) (l : List Bucket) : (dropBucket k l).Sublist l := by
  induction l with
  | nil => exact List.Sublist.refl _
  | cons x l ih =>
    by_cases hx : x.key = k
    · simp [dropBucket, hx]
    · simp [dropBucket, hx, ih]

theorem findBucket_drop {k k' : Key} {l : List Bucket} (hn : (l.map Bucket.key).Nodup) :
    findBucket k' (dropBucket k l) = if k' = k then none else findBucket k' l := by
  induction l with
  | nil => simp [findBucket, dropBucket]
  | cons x l ih =>
    rw [List.map_cons, List.nodup_cons] at hn
    by_cases hx : x.key = k
    · rw [dropBucket, if_pos hx]
      by_cases hk : k' = k
      · rw [if_pos hk, hk, ← hx]
        exact findBucket_none.2 hn.1
      · rw [if_neg hk, findBucket, if_neg (fun e => hk (e.symm.trans hx))]
    · rw [dropBucket, if_neg hx, findBucket, ih hn.2]
      by_cases hk : k' = k
      · rw [if_pos hk, if_neg (fun e => hx (e.trans hk)), if_pos hk]
      · rw [if_neg hk, if_neg hk, findBucket]

theorem lookup_eq (T : Table) (k : Key) : lookup T k = ((findBucket k (T.chain (hashBytes k T.size))).map Bucket.rows).getD [] := by
  unfold lookup
  cases findBucket k (T.chain (hashBytes k T.size)) <;> rfl

/-- Lookup in a table with one changed chain. -/
theorem lookup_set {T : Table} {k : Key} {l : List Bucket} {f : List Word}
    (h : ∀ k', ((findBucket k' l).map Bucket.rows).getD [] =
      if k' = k then f else ((findBucket k' (T.chain (hashBytes k T.size))).map Bucket.rows).getD [])
    (k' : Key) : lookup (T.set (hashBytes k T.size) l) k' = if k' = k then f else lookup T k' := by
  rw [lookup_eq, lookup_eq]
  simp only [Table.set]
  by_cases hi : hashBytes k' T.size = hashBytes k T.size
  · rw [if_pos hi, h k', hi]
  · rw [if_neg hi, if_neg (fun e => hi (by rw [e]))]

theorem TInv.set {T : Table} (h : TInv T) {i : Nat} {l : List Bucket} (hl : (l.map Bucket.key).Nodup) : TInv (T.set i l) := by
  intro j
  simp only [Table.set]
  by_cases hj : j = i
  · rw [if_pos hj]
    exact hl
  · rw [if_neg hj]
    exact h j

theorem store_ok {T : Table} (h : TInv T) (k : Key) (r : Word) : TInv (store T k r).1 ∧ (store T k r).2 = 0 ∧
    ∀ k', lookup (store T k r).1 k' = if k' = k then r :: lookup T k else lookup T k' := by
  unfold store
  dsimp only
  cases hf : findBucket k (T.chain (hashBytes k T.size)) with
  | none =>
    refine ⟨h.set ?_, rfl, lookup_set ?_⟩
    · rw [List.map_cons, List.nodup_cons]
      exact ⟨findBucket_none.1 hf, h _⟩
    · intro k'
      rw [findBucket]
      by_cases hk : k' = k
      · rw [if_pos hk.symm, if_pos hk, lookup_eq, hf]
        rfl
      · rw [if_neg (Ne.symm hk), if_neg hk]
  | some b =>
    refine ⟨h.set (by rw [setRows_keys]; exact h _), rfl, lookup_set ?_⟩
    intro k'
    rw [findBucket_setRows]
    by_cases hk : k' = k
    · rw [if_pos hk, if_pos hk, hf, lookup_eq, hf]
      rfl
    · rw [if_neg hk, if_neg hk]

theorem remove_ok {T : Table} (h : TInv T) (k : Key) (r : Word) : TInv (remove T k r).1 ∧
    (remove T k r).2 = (if r ∈ lookup T k then 0 else -1) ∧
    ∀ k', lookup (remove T k r).1 k' = if k' = k then (lookup T k).erase r else lookup T k' := by
  unfold remove
  dsimp only
  cases hf : findBucket k (T.chain (hashBytes k T.size)) with
  | none =>
    have hl : lookup T k = [] := by rw [lookup_eq, hf]; rfl
    refine ⟨h, by rw [hl]; simp, ?_⟩
    intro k'
    by_cases hk : k' = k
    · rw [if_pos hk, hl, hk, hl]
      rfl
    · rw [if_neg hk]
  | some b =>
    have hl : lookup T k = b.rows := by rw [lookup_eq, hf]; rfl
    dsimp only
    rw [hl]
    by_cases hr : r ∈ b.rows
    · rw [if_neg (not_not.2 hr), if_pos hr]
      by_cases he : b.rows.erase r = []
      · rw [if_pos he]
        refine ⟨h.set (List.Sublist.nodup ((dropBucket_sub k _).map _) (h _)), rfl, lookup_set ?_⟩
        intro k'
        rw [findBucket_drop (h _), he]
        by_cases hk : k' = k
        · rw [if_pos hk, if_pos hk]
          rfl
        · rw [if_neg hk, if_neg hk]
      · rw [if_neg he]
        refine ⟨h.set (by rw [setRows_keys]; exact h _), rfl, lookup_set ?_⟩
        intro k'
        rw [findBucket_setRows, hf]
        by_cases hk : k' = k
        · rw [if_pos hk, if_pos hk]
          rfl
        · rw [if_neg hk, if_neg hk]
    · rw [if_pos hr, if_neg hr]
      refine ⟨h, rfl, ?_⟩
      intro k'
      rw [List.erase_of_not_mem hr]
      by_cases hk : k' = k
      · rw [if_pos hk, hk, hl]
      · rw [if_neg hk]

/-! ## The recursion over the columns -/

theorem eachElem_append {α : Type} (f : α → Table → Table × Int) (a b : List α) (T : Table) :
    eachElem f (a ++ b) T = if (eachElem f a T).2 ≠ 0 then eachElem f a T else eachElem f b (eachElem f a T).1 := by
  induction a generalizing T with
  | nil => simp [eachElem]
  | cons x a ih =>
    rw [List.cons_append, eachElem, eachElem]
    by_cases hx : (f x T).2 ≠ 0
    · rw [if_pos hx, if_pos hx, if_pos hx]
    · rw [if_neg hx, if_neg hx, ih]

theorem eachElem_flatMap {α β : Type} (f : β → Table → Table × Int) (g : α → List β) (a : List α) (T : Table) :
    eachElem f (a.flatMap g) T = eachElem (fun x T => eachElem f (g x) T) a T := by
  induction a generalizing T with
  | nil => rfl
  | cons x a ih => rw [List.flatMap_cons, eachElem_append, eachElem, ih]

theorem eachElem_map {α β : Type} (f : β → Table → Table × Int) (g : α → β) (a : List α) (T : Table) :
    eachElem f (a.map g) T = eachElem (fun x T => f (g x) T) a T := by
  induction a generalizing T with
  | nil => rfl
  | cons x a ih => rw [List.map_cons, eachElem, eachElem, ih]

theorem eachElem_congr {α : Type} {f g : α → Table → Table × Int} {a : List α} (h : ∀ x ∈ a, ∀ T, f x T = g x T) (T : Table) :
    eachElem f a T = eachElem g a T := by
  induction a generalizing T with
  | nil => rfl
  | cons x a ih => rw [eachElem, eachElem, h x List.mem_cons_self, ih (fun y hy => h y (List.mem_cons_of_mem _ hy))]

theorem eachElem_single {α : Type} (f : α → Table → Table × Int) (x : α) (T : Table) : eachElem f [x] T = f x T := by
  rw [eachElem, eachElem]
  by_cases hx : (f x T).2 ≠ 0
  · rw [if_pos hx]
  · rw [if_neg hx, ← not_not.1 hx]

def bytesOf (E : Env) (x : Word) : Key := (hashable E x).getD []

theorem recurse_eq (E : Env) (ex : Bool) (op : Table → Key → Table × Int) (vs : List Word) (h : Hashable E ex vs) (pre : Key) (T : Table) :
    recurse E ex op vs pre T = eachElem (fun l T => op T ((l.map (bytesOf E)).foldl extendKey pre)) (choices E ex vs) T := by
  induction vs generalizing pre T with
  | nil => rw [choices, eachElem_single]; rfl
  | cons v vs ih =>
    have hv := h v List.mem_cons_self
    have hvs : Hashable E ex vs := fun x hx => h x (List.mem_cons_of_mem _ hx)
    have hstep : ∀ x ∈ valuesOf E ex v, ∀ T,
        (match hashable E x with
          | none => (T, -1)
          | some b => recurse E ex op vs (extendKey pre b) T) =
        eachElem (fun l T => op T ((l.map (bytesOf E)).foldl extendKey pre)) ((choices E ex vs).map (x :: ·)) T := by
      intro x hx T
      cases hb : hashable E x with
      | none => exact absurd hb (hv x hx)
      | some b =>
        dsimp only
        rw [ih hvs, eachElem_map]
        have : bytesOf E x = b := by rw [bytesOf, hb]; rfl
        simp only [List.map_cons, List.foldl_cons, this]
    rw [choices, eachElem_flatMap, recurse]
    dsimp only
    unfold valuesOf at hstep ⊢
    cases hc : (if ex = true then E.arr v else none) with
    | none =>
      rw [hc] at hstep
      dsimp only at hstep ⊢
      rw [eachElem_single]
      exact hstep v (List.mem_singleton_self v) T
    | some elems =>
      rw [hc] at hstep
      dsimp only at hstep ⊢
      exact eachElem_congr hstep T

theorem bytesOf_ne {E : Env} {x : Word} (h : hashable E x ≠ none) : bytesOf E x ≠ [] := by
  unfold bytesOf
  unfold hashable at h ⊢
  cases hE : E.R.typ x with
  | none => rw [hE] at h; exact absurd rfl h
  | some t => cases t <;> rw [hE] at h <;> simp at h ⊢

theorem foldl_joined (bs : List Key) (pre : Key) (hp : pre ≠ []) : bs.foldl extendKey pre = joined (pre :: bs) := by
  induction bs generalizing pre with
  | nil => rfl
  | cons b bs ih =>
    rw [List.foldl_cons, ih _ (by unfold extendKey; rw [if_neg hp]; simp), extendKey, if_neg hp]
    cases bs with
    | nil => simp [joined]
    | cons c bs => simp [joined, List.append_assoc]

theorem foldl_extend (bs : List Key) (h : ∀ b ∈ bs, b ≠ []) : bs.foldl extendKey [] = joined bs := by
  cases bs with
  | nil => rfl
  | cons b bs =>
    rw [List.foldl_cons]
    have : extendKey [] b = b := by simp [extendKey]
    rw [this, foldl_joined bs b (h b List.mem_cons_self)]

theorem choices_mem {E : Env} {ex : Bool} {vs l : List Word} (h : Hashable E ex vs) (hl : l ∈ choices E ex vs) : ∀ x ∈ l, hashable E x ≠ none := by
  induction vs generalizing l with
  | nil => simp only [choices, List.mem_singleton] at hl; subst hl; intro x hx; cases hx
  | cons v vs ih =>
    simp only [choices, List.mem_flatMap, List.mem_map] at hl
    obtain ⟨x, hx, m, hm, rfl⟩ := hl
    intro y hy
    rcases List.mem_cons.1 hy with rfl | hy
    · exact h v List.mem_cons_self _ hx
    · exact ih (fun z hz => h z (List.mem_cons_of_mem _ hz)) hm y hy

theorem recurse_keys (E : Env) (ex : Bool) (op : Table → Key → Table × Int) (vs : List Word) (h : Hashable E ex vs) (T : Table) :
    recurse E ex op vs [] T = eachElem (fun k T => op T k) (keysOf E ex vs) T := by
  rw [recurse_eq E ex op vs h, keysOf, eachElem_map]
  refine eachElem_congr ?_ T
  intro l hl T'
  rw [foldl_extend]
  · rfl
  · intro b hb
    obtain ⟨x, hx, rfl⟩ := List.mem_map.1 hb
    exact bytesOf_ne (choices_mem h hl x hx)

theorem eachElem_store {T : Table} (h : TInv T) (r : Word) (ks : List Key) :
    TInv (eachElem (fun k T => store T k r) ks T).1 ∧ (eachElem (fun k T => store T k r) ks T).2 = 0 ∧
    ∀ k, (lookup (eachElem (fun k T => store T k r) ks T).1 k).Perm (List.replicate (ks.count k) r ++ lookup T k) := by
  induction ks generalizing T with
  | nil => exact ⟨h, rfl, fun k => by simp [eachElem]⟩
  | cons k0 ks ih =>
    obtain ⟨h1, h2, h3⟩ := store_ok h k0 r
    rw [eachElem, if_neg (not_not.2 h2)]
    obtain ⟨i1, i2, i3⟩ := ih h1
    refine ⟨i1, i2, fun k => (i3 k).trans ?_⟩
    rw [h3 k, List.count_cons]
    by_cases hk : k = k0
    · subst hk
      rw [if_pos rfl]
      simp only [beq_self_eq_true, if_true]
      rw [List.replicate_succ, List.cons_append]
      exact List.perm_middle
    · rw [if_neg hk]
      have : (k0 == k) = false := beq_eq_false_iff_ne.2 (Ne.symm hk)
      simp [this]

theorem eachElem_remove {T : Table} (h : TInv T) (r : Word) (ks : List Key) (M : Key → List Word)
    (hM : ∀ k, (lookup T k).Perm (List.replicate (ks.count k) r ++ M k)) :
    TInv (eachElem (fun k T => remove T k r) ks T).1 ∧ (eachElem (fun k T => remove T k r) ks T).2 = 0 ∧
    ∀ k, (lookup (eachElem (fun k T => remove T k r) ks T).1 k).Perm (M k) := by
  induction ks generalizing T with
  | nil => exact ⟨h, rfl, fun k => by simpa [eachElem] using hM k⟩
  | cons k0 ks ih =>
    obtain ⟨h1, h2, h3⟩ := remove_ok h k0 r
    have hmem : r ∈ lookup T k0 := by
      rw [(hM k0).mem_iff, List.count_cons]
      simp [List.replicate_succ]
    rw [if_pos hmem] at h2
    rw [eachElem, if_neg (not_not.2 h2)]
    refine ih h1 (fun k => ?_)
    rw [h3 k]
    have hk0 := hM k
    rw [List.count_cons] at hk0
    by_cases hk : k = k0
    · subst hk
      rw [if_pos rfl]
      simp only [beq_self_eq_true, if_true, List.replicate_succ, List.cons_append] at hk0
      exact (hk0.erase r).trans (by rw [List.erase_cons_head])
    · rw [if_neg hk]
      have : (k0 == k) = false := beq_eq_false_iff_ne.2 (Ne.symm hk)
      simpa [this] using hk0

/-- The rows a lookup of `k` is to return. -/
def rowsOf (L : List (Word × List Key)) (k : Key) : List Word := L.flatMap fun e => List.replicate (e.2.count k) e.1

theorem addRow_ok {E : Env} {ex : Bool} {T : Table} (h : TInv T) (r : Word) {vs : List Word} (hv : Hashable E ex vs) :
    TInv (addRow E ex T r vs).1 ∧ (addRow E ex T r vs).2 = 0 ∧
    ∀ k, (lookup (addRow E ex T r vs).1 k).Perm (List.replicate ((keysOf E ex vs).count k) r ++ lookup T k) := by
  unfold addRow
  rw [recurse_keys E ex _ vs hv]
  exact eachElem_store h r _

theorem removeRow_ok {E : Env} {ex : Bool} {T : Table} (h : TInv T) (r : Word) {vs : List Word} (hv : Hashable E ex vs) (M : Key → List Word)
    (hM : ∀ k, (lookup T k).Perm (List.replicate ((keysOf E ex vs).count k) r ++ M k)) :
    TInv (removeRow E ex T r vs).1 ∧ (removeRow E ex T r vs).2 = 0 ∧ ∀ k, (lookup (removeRow E ex T r vs).1 k).Perm (M k) := by
  unfold removeRow
  rw [recurse_keys E ex _ vs hv]
  exact eachElem_remove h r _ M hM

theorem recurse_refuse {E : Env} {vs : List Word} (op : Table → Key → Table × Int) (hv : ¬Hashable E false vs) (pre : Key) (T : Table) :
    recurse E false op vs pre T = (T, -1) := by
  induction vs generalizing pre with
  | nil => exact absurd (fun v hx => by cases hx) hv
  | cons v vs ih =>
    rw [recurse]
    dsimp only
    rw [if_neg (by simp)]
    dsimp only
    cases hb : hashable E v with
    | none => rfl
    | some b =>
      dsimp only
      refine ih (fun hvs => hv ?_) _
      intro x hx y hy
      rcases List.mem_cons.1 hx with rfl | hx
      · simp only [valuesOf] at hy
        rw [if_neg (by simp)] at hy
        rw [List.mem_singleton.1 hy, hb]
        simp
      · exact hvs x hx y hy

theorem rowsOf_erase {L : List (Word × List Key)} {e : Word × List Key} (h : e ∈ L) (k : Key) :
    (rowsOf L k).Perm (List.replicate (e.2.count k) e.1 ++ rowsOf (L.erase e) k) := by
  have := (List.perm_cons_erase h).flatMap_right (fun e => List.replicate (e.2.count k) e.1)
  rw [List.flatMap_cons] at this
  exact this

theorem hist_inv {ex : Bool} {T : Table} {L : List (Word × List Key)} (h : Hist ex T L) : TInv T ∧ ∀ k, (lookup T k).Perm (rowsOf L k) := by
  induction h with
  | init n => exact ⟨fun i => List.nodup_nil, fun k => List.Perm.refl _⟩
  | add E r vs _ _ hv ih =>
    obtain ⟨h1, _, h3⟩ := addRow_ok ih.1 r hv
    exact ⟨h1, fun k => (h3 k).trans ((ih.2 k).append_left _)⟩
  | refuse E r vs _ he hv ih =>
    subst he
    unfold addRow
    rw [recurse_refuse _ hv]
    exact ih
  | remove E r vs _ _ hv hm ih =>
    obtain ⟨h1, _, h3⟩ := removeRow_ok ih.1 r hv _ (fun k => (ih.2 k).trans (rowsOf_erase hm k))
    exact ⟨h1, h3⟩

theorem keyBytes_eq (E : Env) (vs : List Word) (pre : Key) :
    keyBytes E vs pre = if ∀ v ∈ vs, hashable E v ≠ none then some ((vs.map (bytesOf E)).foldl extendKey pre) else none := by
  induction vs generalizing pre with
  | nil => simp [keyBytes]
  | cons v vs ih =>
    rw [keyBytes]
    cases hb : hashable E v with
    | none =>
      rw [if_neg]
      intro g
      exact g v List.mem_cons_self hb
    | some b =>
      dsimp only
      rw [ih]
      have h1 : bytesOf E v = b := by rw [bytesOf, hb]; rfl
      by_cases hv : ∀ v ∈ vs, hashable E v ≠ none
      · rw [if_pos hv, if_pos]
        · rw [List.map_cons, List.foldl_cons, h1]
        · intro x hx
          rcases List.mem_cons.1 hx with rfl | hx
          · rw [hb]; simp
          · exact hv x hx
      · rw [if_neg hv, if_neg (fun g => hv fun x hx => g x (List.mem_cons_of_mem _ hx))]

end WG.HashIndex
