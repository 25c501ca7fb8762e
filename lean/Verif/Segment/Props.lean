import Verif.Segment.Ops
/-! # C63: the objects of one database never overlap -/
namespace WG.Segment
open WG.Varlen (Sub upd allocChunk)

/-! ## Where the objects are -/

theorem Inv.object {hdr : Nat} {db : DB} {L : Live} (h : Inv hdr db L) {i a n : Nat} (ha : L i a = some n) :
    ∃ A, db.areas[i]? = some A ∧ a % 8 = 0 ∧ 8 * n ≤ room db i n ∧ ∃ s ∈ A.subs, s.aoff ≤ a ∧ a + room db i n ≤ s.aoff + s.asize := by
  cases hA : db.areas[i]? with
  | none => rw [h.noArea i hA] at ha; cases ha
  | some A =>
    refine ⟨A, rfl, ?_⟩
    cases A with
    | var fb subs =>
      have hr : Varlen.Reach (db.var fb subs) (L i) := h.area i _ hA
      obtain ⟨h1, _, s, hs, h2, h3, _⟩ := Varlen.C08_inside hr ha
      have e : room db i n = Varlen.room n := by unfold room; rw [hA]; rfl
      rw [e]
      exact ⟨h1, by unfold Varlen.room; omega, s, hs, by omega, by omega⟩
    | fix obj fl subs =>
      obtain ⟨U, hr, hl⟩ := h.area i _ hA
      have hr : Fixlen.Reach (db.fix obj fl subs) U := hr
      obtain ⟨hU, rfl⟩ := (hl a n).1 ha
      obtain ⟨fl', hi⟩ := Fixlen.reach_inv hr
      obtain ⟨h1, _, s, hs, h2, h3, _⟩ := Fixlen.C11_inside hr hU
      have e : room db i (obj / 8) = 8 * (obj / 8) := by unfold room; rw [hA]
      have ho : obj % 8 = 0 := hi.obj.1
      have h3 : a + obj ≤ s.aoff + s.asize := h3
      rw [e]
      exact ⟨h1, Nat.le_refl _, s, hs, h2, by omega⟩

/-- Two objects of one database, of whatever areas, never share a byte. -/
theorem C63_disjoint {hdr : Nat} {db : DB} {L : Live} (h : Reach hdr db L) {i j a b n m : Nat} (ha : L i a = some n) (hb : L j b = some m)
    (hne : ¬ (i = j ∧ a = b)) : Apart a (room db i n) b (room db j m) := by
  have hi := reach_inv h
  by_cases hij : i = j
  · subst hij
    have hab : a ≠ b := fun e => hne ⟨rfl, e⟩
    cases hA : db.areas[i]? with
    | none => rw [hi.noArea i hA] at ha; cases ha
    | some A =>
      cases A with
      | var fb subs =>
        have hr : Varlen.Reach (db.var fb subs) (L i) := hi.area i _ hA
        have e : ∀ n, room db i n = Varlen.room n := by intro n; unfold room; rw [hA]; rfl
        rw [e, e]
        exact Varlen.C08_disjoint hr ha hb hab
      | fix obj fl subs =>
        obtain ⟨U, hr, hl⟩ := hi.area i _ hA
        have hr : Fixlen.Reach (db.fix obj fl subs) U := hr
        obtain ⟨hU, rfl⟩ := (hl a n).1 ha
        obtain ⟨hU', rfl⟩ := (hl b m).1 hb
        obtain ⟨fl', hi'⟩ := Fixlen.reach_inv hr
        have ho : obj % 8 = 0 := hi'.obj.1
        have e : room db i (obj / 8) = obj := by unfold room; rw [hA]; simp only; omega
        rw [e]
        exact Fixlen.C11_disjoint hr hU (.inl hU') hab
  · obtain ⟨A, hA, _, _, s, hs, h1, h2⟩ := hi.object ha
    obtain ⟨B, hB, _, _, t, ht, h3, h4⟩ := hi.object hb
    have := hi.disj i j A B hij hA hB s hs t ht
    unfold Apart at *
    omega

/-- Every object is aligned, behind the header, inside the segment and apart from the hash arrays; those are apart from each other. -/
theorem C63_inside {hdr : Nat} {db : DB} {L : Live} (h : Reach hdr db L) :
    (∀ i a n, L i a = some n → a % 8 = 0 ∧ hdr ≤ a ∧ a + room db i n ≤ db.free ∧ 8 * n ≤ room db i n ∧
      ∀ p ∈ db.arrays, Apart a (room db i n) p.1 (8 * p.2)) ∧
    (∀ p ∈ db.arrays, p.1 % 8 = 0 ∧ hdr ≤ p.1 ∧ p.1 + 8 * p.2 ≤ db.free) ∧
    db.arrays.Pairwise (fun p q => Apart p.1 (8 * p.2) q.1 (8 * q.2)) ∧ db.free ≤ db.size := by
  have hi := reach_inv h
  refine ⟨?_, hi.arr, hi.arrPw, hi.seg.2.2.2.1⟩
  intro i a n ha
  obtain ⟨A, hA, h0, h5, s, hs, h1, h2⟩ := hi.object ha
  have := hi.range i A hA s hs
  refine ⟨h0, by omega, by omega, h5, ?_⟩
  intro p hp
  have := hi.arrArea p hp i A hA s hs
  unfold Apart at *
  omega

/-! ## What operations leave alone -/

/-- Words of the owner of an object are in the area, and of arrays in none. -/
theorem Inv.own {hdr : Nat} {db : DB} {L : Live} (h : Inv hdr db L) {i a n x : Nat} (ha : L i a = some n) (ho : Own db i a n x) :
    x < db.free ∧ ∀ j B, j ≠ i → db.areas[j]? = some B → ¬ InSubs B.subs x := by
  obtain ⟨A, hA, h0, h5, s, hs, h1, h2⟩ := h.object ha
  have hr := h.range i A hA s hs
  obtain ⟨o1, o2, o3⟩ := ho
  refine ⟨by omega, ?_⟩
  rintro j B hj hB ⟨t, ht, h3, h4⟩
  have := h.disj j i B A hj hB hA t ht s hs
  unfold Apart at this
  omega

theorem Inv.arrWord {hdr : Nat} {db : DB} {L : Live} (h : Inv hdr db L) {s len k : Nat} (hp : (s, len) ∈ db.arrays) (hk : k < len) :
    s + 8 * k < db.free ∧ ∀ (j : Nat) (B : Area), db.areas[j]? = some B → ¬ InSubs B.subs (s + 8 * k) := by
  have h1 := (h.arr _ hp).2.2
  simp only at h1
  refine ⟨by omega, ?_⟩
  rintro j B hB ⟨t, ht, h3, h4⟩
  have := h.arrArea _ hp j B hB t ht
  unfold Apart at this
  simp only at this
  omega

theorem Inv.alloc_mem {hdr : Nat} {db : DB} {L : Live} (h : Inv hdr db L) (i n x : Nat) (hx : x < db.free ∨ db.size ≤ x)
    (hA : ∀ A, db.areas[i]? = some A → ¬ InSubs A.subs x) : (Segment.alloc db i n).1.mem x = db.mem x := by
  unfold Segment.alloc
  cases hA' : db.areas[i]? with
  | none => rfl
  | some A =>
    cases A with
    | var fb subs =>
      have hr : Varlen.Reach (db.var fb subs) (L i) := h.area i _ hA'
      exact (Varlen.C09_alloc_frame hr n).2 x hx (hA _ hA')
    | fix obj fl subs =>
      obtain ⟨U, hr, hl⟩ := h.area i _ hA'
      exact (fix_alloc hr).2.2.2.2 x hx

theorem Inv.free_mem {hdr : Nat} {db : DB} {L : Live} (h : Inv hdr db L) {i a n x : Nat} (ha : L i a = some n) (hx : x < db.free ∨ db.size ≤ x)
    (hA : ∀ A, db.areas[i]? = some A → ¬ InSubs A.subs x) : (Segment.free db i a).mem x = db.mem x := by
  unfold Segment.free
  cases hA' : db.areas[i]? with
  | none => rfl
  | some A =>
    cases A with
    | var fb subs =>
      have hr : Varlen.Reach (db.var fb subs) (L i) := h.area i _ hA'
      exact (Varlen.C09_free_frame hr ha).2 x hx (hA _ hA')
    | fix obj fl subs =>
      refine Fixlen.C11_free_frame _ _ _ ?_
      rintro rfl
      obtain ⟨A, hA2, h0, h5, s, hs, h1, h2⟩ := h.object ha
      obtain ⟨U, hr, hl⟩ := h.area i _ hA'
      obtain ⟨hU, rfl⟩ := (hl x n).1 ha
      obtain ⟨fl', hi⟩ := Fixlen.reach_inv hr
      have ho : obj % 8 = 0 ∧ 0 < obj := ⟨hi.obj.1, hi.obj.2.1⟩
      have e : room db i (obj / 8) = obj := by unfold room; rw [hA']; simp only; omega
      rw [e] at h2
      exact hA A hA2 ⟨s, hs, h1, by omega⟩

/-- An allocation in any area, successful or not, changes no word of the owner of any object, and no word of an array. -/
theorem C63_alloc_frame {hdr : Nat} {db : DB} {L : Live} (h : Reach hdr db L) (i n : Nat) :
    (∀ j b m x, L j b = some m → Own db j b m x → (alloc db i n).1.mem x = db.mem x) ∧
    (∀ s len k, (s, len) ∈ db.arrays → k < len → (alloc db i n).1.mem (s + 8 * k) = db.mem (s + 8 * k)) := by
  have hi := reach_inv h
  constructor
  · intro j b m x hb ho
    obtain ⟨h1, h2⟩ := hi.own hb ho
    by_cases hij : i = j
    · subst hij
      unfold Segment.alloc
      cases hA : db.areas[i]? with
      | none => rfl
      | some A =>
        cases A with
        | var fb subs =>
          have hr : Varlen.Reach (db.var fb subs) (L i) := hi.area i _ hA
          have e8 : reserved db i = 8 := by unfold reserved; rw [hA]
          obtain ⟨o1, o2, o3⟩ := ho
          rw [e8] at o2
          exact (Varlen.C09_alloc_frame hr n).1 b m x hb o2 o3
        | fix obj fl subs =>
          obtain ⟨U, hr, hl⟩ := hi.area i _ hA
          exact (fix_alloc hr).2.2.2.2 x (.inl h1)
    · exact hi.alloc_mem i n x (.inl h1) (fun A hA => h2 i A hij hA)
  · intro s len k hp hk
    obtain ⟨h1, h2⟩ := hi.arrWord hp hk
    exact hi.alloc_mem i n _ (.inl h1) (fun A hA => h2 i A hA)

/-- Freeing an object changes no word of the owner of any other object, and no word of an array. -/
theorem C63_free_frame {hdr : Nat} {db : DB} {L : Live} (h : Reach hdr db L) {i a n : Nat} (ha : L i a = some n) :
    (∀ j b m x, L j b = some m → ¬ (j = i ∧ b = a) → Own db j b m x → (free db i a).mem x = db.mem x) ∧
    (∀ s len k, (s, len) ∈ db.arrays → k < len → (free db i a).mem (s + 8 * k) = db.mem (s + 8 * k)) := by
  have hi := reach_inv h
  constructor
  · intro j b m x hb hne ho
    obtain ⟨h1, h2⟩ := hi.own hb ho
    by_cases hij : i = j
    · subst hij
      have hba : b ≠ a := fun e => hne ⟨rfl, e⟩
      unfold Segment.free
      cases hA : db.areas[i]? with
      | none => rfl
      | some A =>
        cases A with
        | var fb subs =>
          have hr : Varlen.Reach (db.var fb subs) (L i) := hi.area i _ hA
          have e8 : reserved db i = 8 := by unfold reserved; rw [hA]
          obtain ⟨o1, o2, o3⟩ := ho
          rw [e8] at o2
          exact (Varlen.C09_free_frame hr ha).1 b m x hb hba o2 o3
        | fix obj fl subs =>
          refine Fixlen.C11_free_frame _ _ _ ?_
          rintro rfl
          have hap := C63_disjoint h ha hb (fun e => hba e.2.symm)
          obtain ⟨U, hr, hl⟩ := hi.area i _ hA
          obtain ⟨hU, rfl⟩ := (hl x n).1 ha
          obtain ⟨hU', rfl⟩ := (hl b m).1 hb
          obtain ⟨fl', hi'⟩ := Fixlen.reach_inv hr
          have hobj : obj % 8 = 0 ∧ 0 < obj := ⟨hi'.obj.1, hi'.obj.2.1⟩
          have e : room db i (obj / 8) = obj := by unfold room; rw [hA]; simp only; omega
          have e0 : reserved db i = 0 := by unfold reserved; rw [hA]
          rw [e] at hap
          obtain ⟨o1, o2, o3⟩ := ho
          unfold Apart at hap
          omega
    · exact hi.free_mem ha (.inl h1) (fun A hA => h2 i A hij hA)
  · intro s len k hp hk
    obtain ⟨h1, h2⟩ := hi.arrWord hp hk
    exact hi.free_mem ha (.inl h1) (fun A hA => h2 i A hA)

theorem clearArray_zero {s : Nat} : ∀ {n j k : Nat} {mem : Nat → Nat}, j ≤ k → k < j + n → clearArray s n mem j (s + 8 * k) = 0 := by
  intro n
  induction n with
  | zero => intro j k mem h1 h2; omega
  | succ n ih =>
    intro j k mem h1 h2
    rw [clearArray]
    by_cases e : k = j
    · subst e
      have keep : ∀ (n j' : Nat) (mem : Nat → Nat), k < j' → clearArray s n mem j' (s + 8 * k) = mem (s + 8 * k) := by
        intro n
        induction n with
        | zero => intro j' mem _; rfl
        | succ n ih' =>
          intro j' mem hj
          rw [clearArray, ih' _ _ (by omega)]
          exact Varlen.upd_ne (by omega)
      rw [keep _ _ _ (by omega), Nat.mul_comm 8 k]
      exact Varlen.upd_self _ _ _
    · exact ih (by omega) (by omega)

/-- A new hash index gets an array of its own, filled with zeros (of 10000 words if no length is given); nothing else changes. -/
theorem C63_hash {hdr : Nat} {db db' : DB} {L : Live} (h : Reach hdr db L) {len : Int} (hh : createHash db len = some db') :
    ∃ s n, db'.arrays = db.arrays ++ [(s, n)] ∧ n = (if len ≤ 0 then 10000 else len.toNat) ∧ db.free ≤ s ∧
      (∀ k < n, db'.mem (s + 8 * k) = 0) ∧ s + 8 * n ≤ db'.size ∧
      (∀ x, x < s ∨ s + 8 * n ≤ x → db'.mem x = db.mem x) ∧ db'.areas = db.areas := by
  have hi := reach_inv h
  obtain ⟨s1, s2, s3, s4, s5⟩ := hi.seg
  have hm := hi.hash_mem hh
  unfold createHash at hh hm
  generalize hn : (if len ≤ 0 then 10000 else len.toNat) = n at hh hm
  unfold initHash at hh
  simp only at hh
  split at hh
  · cases hh
  · rename_i chunk free hc
    obtain ⟨rfl, c2, c3, c4, _⟩ := Varlen.allocChunk_some s3 hc
    injection hh with hh
    rw [s3, if_pos rfl, Nat.add_zero] at hh
    subst hh
    exact ⟨db.free, n, rfl, rfl, Nat.le_refl _, fun k hk => clearArray_zero (by omega) (by omega), by have := hm.2.1; have := hm.2.2.1; show db.free + 8 * n ≤ db.size; omega, hm.2.2.2, rfl⟩

/-- Words before the areas or behind the segment. -/
theorem Inv.outside {hdr : Nat} {db : DB} {L : Live} (h : Inv hdr db L) {x : Nat} (hx : x < hdr ∨ db.size ≤ x) :
    (x < db.free ∨ db.size ≤ x) ∧ ∀ (i : Nat) (A : Area), db.areas[i]? = some A → ¬ InSubs A.subs x := by
  obtain ⟨s1, s2, s3, s4, s5⟩ := h.seg
  refine ⟨by omega, ?_⟩
  rintro i A hA ⟨s, hs, h1, h2⟩
  have := h.range i A hA s hs
  omega

/-- Nothing is ever stored outside of the segment, nor in the header's place: neither by a successful initialisation, nor by any call after it. -/
theorem C63_stores {hdr : Nat} :
    (∀ mem size len queued db x, 0 < hdr → size ≤ 2^40 → initDb mem hdr size len queued = some db → x < hdr ∨ size ≤ x → db.mem x = mem x) ∧
    ∀ db L x, Reach hdr db L → x < hdr ∨ db.size ≤ x →
      (∀ i n, (alloc db i n).1.mem x = db.mem x) ∧ (∀ i a n, L i a = some n → (free db i a).mem x = db.mem x) ∧
      (∀ len db', createHash db len = some db' → db'.mem x = db.mem x) := by
  constructor
  · intro mem size len queued db x h0 hz hh hx
    unfold initDb at hh
    simp only at hh
    generalize hf : hdr + (if 8 - hdr % 8 = 8 then 0 else 8 - hdr % 8) = f at hh
    have f1 : hdr ≤ f ∧ f % 8 = 0 := by split_ifs at hf <;> omega
    by_cases hs : size < f
    · rw [initAreas_small f1.2 hs] at hh; cases hh
    · have i0 := Inv.start (mem := mem) h0 f1.1 f1.2 (by omega : f ≤ size) hz
      have hl : ∀ o, some o ∈ layout → o % 8 = 0 ∧ 0 < o ∧ o ≤ 8192 := by
        intro o ho
        unfold layout at ho
        simp at ho
        omega
      split at hh
      · cases hh
      · rename_i db1 h1
        obtain ⟨a1, a2, a3⟩ := i0.newAreas_mem hl h1
        have i1 := i0.newAreas hl h1
        simp only at a1 a2 a3
        split at hh
        · cases hh
        · rename_i db2 h2
          clear hl
          obtain ⟨b1, b2, b3, b4⟩ := i1.hash_mem h2
          have e : db.mem = db2.mem := by
            unfold initLocks at hh
            split_ifs at hh
            · split at hh
              · cases hh
              · have hh := Option.some.inj hh
                exact (congrArg DB.mem hh).symm
            · have hh := Option.some.inj hh
              exact (congrArg DB.mem hh).symm
          rw [e, b4 x (by omega), a3 x (by omega)]
  · intro db L x h hx
    have hi := reach_inv h
    obtain ⟨o1, o2⟩ := hi.outside hx
    refine ⟨fun i n => hi.alloc_mem i n x o1 (o2 i), fun i a n ha => hi.free_mem ha o1 (o2 i), ?_⟩
    intro len db' hh
    obtain ⟨s1, s2, s3, s4, s5⟩ := hi.seg
    unfold createHash at hh
    generalize (if len ≤ 0 then _ else len.toNat) = n at hh
    obtain ⟨b1, b2, b3, b4⟩ := hi.hash_mem hh
    exact b4 x (by omega)

/-! ## When a segment is large enough -/

/-- `n` rounded up to a multiple of 8. -/
def up8 (n : Nat) : Nat := (n + 7) / 8 * 8

theorem chunk_iff {f z n : Nat} (h8 : f % 8 = 0) (hn : n % 8 = 0) (hz : z ≤ 2^40) :
    allocChunk f z n = if f + n < z then some (f, f + n) else none := by
  by_cases h : f + n < z
  · rw [if_pos h]
    cases hc : allocChunk f z n with
    | none =>
      rcases Fixlen.C12_fail h8 hc with h1 | h1
      · unfold Fixlen.up8 at h1; omega
      · omega
    | some p =>
      obtain ⟨a, f'⟩ := p
      obtain ⟨rfl, e, _⟩ := Fixlen.allocChunk_eq h8 hc
      rw [e]; unfold Fixlen.up8
      have : (n + 7) / 8 * 8 = n := by omega
      rw [this]
  · rw [if_neg h]
    cases hc : allocChunk f z n with
    | none => rfl
    | some p =>
      obtain ⟨a, f'⟩ := p
      obtain ⟨rfl, e, e2⟩ := Fixlen.allocChunk_eq h8 hc
      unfold Fixlen.up8 at e; omega

theorem var_new_iff {mem : Nat → Nat} {f z n : Nat} (h8 : f % 8 = 0) (hn : n % 8 = 0) (hm : 8192 ≤ n) (hz : z ≤ 2^40) :
    (f + n < z → ∃ st, Varlen.newArea mem f z n = some st ∧ st.segFree = f + n) ∧ (¬ f + n < z → Varlen.newArea mem f z n = none) := by
  have hc := chunk_iff (n := n) h8 hn hz
  have hsub : ∀ st : Varlen.St, (Varlen.initFreespace st).segFree = st.segFree := by
    intro st; unfold Varlen.initFreespace
    cases st.subs.getLast? with
    | none => rfl
    | some s =>
      simp only
      unfold Varlen.markSub
      by_cases hl : st.subs.length > 1
      · rw [if_pos hl]
        show (Varlen.retireDv st).segFree = st.segFree
        have := congrArg Varlen.St.segFree (Varlen.retireDv_seg st st.subs st.segFree)
        exact this
      · rw [if_neg hl]; rfl
  have hlt : ¬ n < Varlen.MINSUB := by unfold Varlen.MINSUB; omega
  unfold Varlen.newArea Varlen.initSubarea
  simp only [hc]
  rw [if_neg hlt]
  constructor
  · intro h
    rw [if_pos h]
    exact ⟨_, rfl, by rw [hsub]⟩
  · intro h
    rw [if_neg h]

theorem fix_new_iff {mem : Nat → Nat} {o f z n : Nat} (h8 : f % 8 = 0) (hn : n % 8 = 0) (hm : 8192 ≤ n) (hz : z ≤ 2^40) :
    (f + n < z → ∃ st, Fixlen.newArea mem o f z n = some st ∧ st.segFree = f + n) ∧ (¬ f + n < z → Fixlen.newArea mem o f z n = none) := by
  have hc := chunk_iff (n := n) h8 hn hz
  have hsub : ∀ st : Fixlen.St, (Fixlen.makeFreelist st).segFree = st.segFree := by
    intro st; unfold Fixlen.makeFreelist
    cases st.subs.getLast? <;> rfl
  have hlt : ¬ n < Varlen.MINSUB := by unfold Varlen.MINSUB; omega
  unfold Fixlen.newArea Fixlen.initSubarea
  simp only [hc]
  rw [if_neg hlt]
  constructor
  · intro h
    rw [if_pos h]
    exact ⟨_, rfl, by rw [hsub]⟩
  · intro h
    rw [if_neg h]

theorem initArea_iff {db : DB} (h8 : db.free % 8 = 0) (hz : db.size ≤ 2^40) (k : Option Nat) :
    (db.free + 8192 < db.size → ∃ db', initArea db k = some db' ∧ db'.free = db.free + 8192 ∧ db'.size = db.size) ∧
    (¬ db.free + 8192 < db.size → initArea db k = none) := by
  have hI : INITSUB = 8192 := rfl
  cases k with
  | none =>
    have := var_new_iff (mem := db.mem) (n := INITSUB) h8 (by rw [hI]) (Nat.le_of_eq hI.symm) hz
    rw [hI] at this
    constructor
    · intro h
      obtain ⟨st, e1, e2⟩ := this.1 h
      refine ⟨{ db with mem := st.mem, free := st.segFree, areas := db.areas ++ [.var st.fb st.subs] }, ?_, ?_, ?_⟩
      · rw [initArea_none_eq, hI, e1]
      · exact e2
      · rfl
    · intro h
      rw [initArea_none_eq, hI, this.2 h]
  | some o =>
    have := fix_new_iff (mem := db.mem) (o := o) (n := INITSUB) h8 (by rw [hI]) (Nat.le_of_eq hI.symm) hz
    rw [hI] at this
    constructor
    · intro h
      obtain ⟨st, e1, e2⟩ := this.1 h
      refine ⟨{ db with mem := st.mem, free := st.segFree, areas := db.areas ++ [.fix st.obj st.freelist st.subs] }, ?_, ?_, ?_⟩
      · rw [initArea_some_eq, hI, e1]
      · exact e2
      · rfl
    · intro h
      rw [initArea_some_eq, hI, this.2 h]

theorem initAreas_iff : ∀ (ks : List (Option Nat)) {db : DB}, db.free % 8 = 0 → db.size ≤ 2^40 →
    (db.free + 8192 * ks.length < db.size → ∃ db', initAreas db ks = some db' ∧ db'.free = db.free + 8192 * ks.length ∧ db'.size = db.size) ∧
    (db.free < db.size → ¬ db.free + 8192 * ks.length < db.size → initAreas db ks = none) := by
  intro ks
  induction ks with
  | nil => intro db _ _; exact ⟨fun _ => ⟨db, rfl, rfl, rfl⟩, fun h1 h2 => absurd h1 (by simpa using h2)⟩
  | cons k ks ih =>
    intro db h8 hz
    obtain ⟨a1, a2⟩ := initArea_iff h8 hz k
    simp only [List.length_cons]
    by_cases h : db.free + 8192 < db.size
    · obtain ⟨db1, e1, e2, e3⟩ := a1 h
      obtain ⟨i1, i2⟩ := ih (db := db1) (by omega) (by omega)
      rw [initAreas, e1]
      simp only
      constructor
      · intro h'
        obtain ⟨db', f1, f2, f3⟩ := i1 (by omega)
        exact ⟨db', f1, by omega, by omega⟩
      · intro _ h'
        exact i2 (by omega) (by omega)
    · constructor
      · intro h'; omega
      · intro _ _; rw [initAreas, a2 h]

/-- A segment can be initialised exactly if its size exceeds the header, ten areas of 8192 bytes, the hash array with three more words,
and the queue of the queued lock. (Sizes up to one terabyte.) -/
theorem C63_init_size (mem : Nat → Nat) (hdr size len : Nat) (queued : Bool) (hz : size ≤ 2^40) :
    (initDb mem hdr size len queued).isSome ↔
      up8 hdr + 10 * 8192 + 8 * (len + 3) + (if queued then 8448 else 0) < size := by
  unfold initDb
  simp only
  have hf : hdr + (if 8 - hdr % 8 = 8 then 0 else 8 - hdr % 8) = up8 hdr := by unfold up8; split_ifs <;> omega
  rw [hf]
  have h8 : up8 hdr % 8 = 0 := by unfold up8; omega
  generalize up8 hdr = f at h8 ⊢
  by_cases hs : f < size
  swap
  · have e : initAreas ⟨mem, f, size, [], []⟩ layout = none := by
      unfold layout
      rw [initAreas, (initArea_iff (db := ⟨mem, f, size, [], []⟩) h8 hz none).2 (by simp only; omega)]
    rw [e]
    constructor
    · intro h; cases h
    · intro h; omega
  obtain ⟨a1, a2⟩ := initAreas_iff layout (db := ⟨mem, f, size, [], []⟩) h8 hz
  have hl : layout.length = 10 := rfl
  rw [hl] at a1 a2
  by_cases h1 : f + 8192 * 10 < size
  · obtain ⟨db, e1, e2, e3⟩ := a1 h1
    simp only at e2 e3
    rw [e1]
    simp only
    have d8 : db.free % 8 = 0 := by omega
    have hc := chunk_iff (f := db.free) (z := db.size) (n := (len + 1) * 8 + 2 * 8) d8 (by omega) (by omega)
    unfold initHash
    simp only [hc]
    by_cases h2 : db.free + ((len + 1) * 8 + 2 * 8) < db.size
    · rw [if_pos h2]
      simp only
      unfold initLocks
      cases queued with
      | false => simp only [Bool.false_eq_true, if_false, Option.isSome_some, true_iff]; omega
      | true =>
        simp only [if_true]
        have hc2 := chunk_iff (f := db.free + ((len + 1) * 8 + 2 * 8)) (z := db.size) (n := 128 * (64 + 2)) (by omega) (by omega) (by omega)
        rw [hc2]
        by_cases h3 : db.free + ((len + 1) * 8 + 2 * 8) + 128 * (64 + 2) < db.size
        · rw [if_pos h3]; simp only [Option.isSome_some, true_iff]; omega
        · rw [if_neg h3]; simp only [Option.isSome_none, Bool.false_eq_true, false_iff]; omega
    · rw [if_neg h2]
      simp only [Option.isSome_none, Bool.false_eq_true, false_iff]; split_ifs <;> omega
  · rw [a2 hs h1]
    simp only [Option.isSome_none, Bool.false_eq_true, false_iff]; split_ifs <;> omega

/-- Nothing is stored outside of a segment of at least 48 bytes before its size is checked. -/
theorem C63_header_partial (size : Nat) (h : 48 ≤ size) : ∀ p ∈ headerStores, p.1 + p.2 ≤ size := by
  intro p hp
  have : p.1 + p.2 ≤ 48 := by
    unfold headerStores at hp
    simp only [List.mem_cons, List.not_mem_nil, or_false] at hp
    rcases hp with rfl | rfl | rfl | rfl | rfl | rfl | rfl | rfl <;> decide
  omega

end WG.Segment
