import Verif.Segment.Inv
/-! # Every operation preserves the invariant -/
namespace WG.Segment
open WG.Varlen (Sub upd allocChunk)

attribute [local irreducible] INITSUB

/-! ## What single operations do to the segment -/

theorem var_allocF_subs : ∀ (k : Nat) {st : Varlen.St} {g : Varlen.G}, Varlen.Good st g → ∀ {w : Nat}, w % 8 = 0 →
    ∀ s ∈ (Varlen.allocF k st w).1.subs, s ∈ st.subs ∨ st.segFree ≤ s.off := by
  intro k
  induction k with
  | zero => intro st g _ w _ s hs; exact .inl hs
  | succ k ih =>
    intro st g G0 w hw s hs
    unfold Varlen.allocF at hs
    cases hh : Varlen.allocHere st w with
    | some r =>
      rw [hh] at hs; simp only at hs
      obtain ⟨a, h1, g1, h2, h3, h4, h5, h6⟩ := Varlen.allocHere_res G0 hw hh
      rw [h6.1] at hs; exact .inl hs
    | none =>
      rw [hh] at hs; simp only at hs
      cases he : Varlen.extend st (Varlen.usedBytes w) with
      | none => rw [he] at hs; exact .inl hs
      | some st1 =>
        rw [he] at hs; simp only at hs
        obtain ⟨⟨g1, q1, q2, q3⟩, ⟨t, q4, q5, q6, q7⟩, _⟩ := Varlen.extend_res G0 he
        rcases ih q1 hw s hs with h | h
        · rw [q4] at h
          rcases List.mem_append.1 h with h | h
          · exact .inl h
          · simp only [List.mem_singleton] at h; subst h; exact .inr (by omega)
        · exact .inr (by omega)

theorem var_chunk {st : Varlen.St} {Li : Varlen.Live} (h : Varlen.Reach st Li) :
    (∀ s ∈ st.subs, s.off ≤ s.aoff ∧ s.aoff + s.asize ≤ st.segFree) ∧ st.segFree % 8 = 0 ∧ st.segFree ≤ st.segSize := by
  obtain ⟨g, hg⟩ := Varlen.reach_inv h
  refine ⟨?_, hg.inv.segAl.1, hg.inv.segAl.2.2.1⟩
  intro s hs
  have := hg.inv.chunk s hs
  exact ⟨this.1, by omega⟩

theorem var_alloc {st : Varlen.St} {Li : Varlen.Live} (h : Varlen.Reach st Li) (n : Nat) :
    (∀ s ∈ (Varlen.alloc st n).1.subs, s ∈ st.subs ∨ st.segFree ≤ s.off) ∧ st.segFree ≤ (Varlen.alloc st n).1.segFree ∧
    (Varlen.alloc st n).1.segSize = st.segSize := by
  obtain ⟨g, hg⟩ := Varlen.reach_inv h
  rw [Varlen.alloc_nat]
  obtain ⟨⟨_, r1, r2⟩, _⟩ := Varlen.allocF_res 65 hg.toGood (wanted := 8 * n) (by omega)
  exact ⟨var_allocF_subs 65 hg.toGood (by omega), r1, r2⟩

theorem var_free {st : Varlen.St} {Li : Varlen.Live} (h : Varlen.Reach st Li) {a n : Nat} (ha : Li a = some n) :
    (Varlen.free st a).1.subs = st.subs ∧ (Varlen.free st a).1.segFree = st.segFree ∧ (Varlen.free st a).1.segSize = st.segSize := by
  obtain ⟨g, hg⟩ := Varlen.reach_inv h
  obtain ⟨w, h1, _⟩ := hg.live ha
  obtain ⟨_, ⟨g1, q1, q2, q3, q4⟩, _⟩ := Varlen.free_res hg.toGood h1
  exact q4

theorem fix_chunk {st : Fixlen.St} {U : Fixlen.InUse} (h : Fixlen.Reach st U) :
    (∀ s ∈ st.subs, s.aoff + s.asize ≤ st.segFree) ∧ st.segFree % 8 = 0 ∧ st.segFree ≤ st.segSize := by
  obtain ⟨fl, hi⟩ := Fixlen.reach_inv h
  exact ⟨fun s hs => (hi.subs_al s hs).2.2.1, hi.seg.1, hi.seg.2.2⟩

theorem makeFreelist_subs (st : Fixlen.St) : (Fixlen.makeFreelist st).subs = st.subs := by
  unfold Fixlen.makeFreelist; cases st.subs.getLast? <;> rfl

theorem fix_alloc {st : Fixlen.St} {U : Fixlen.InUse} (h : Fixlen.Reach st U) :
    (∀ s ∈ (Fixlen.alloc st).1.subs, s ∈ st.subs ∨ st.segFree ≤ s.aoff) ∧ st.segFree ≤ (Fixlen.alloc st).1.segFree ∧
    (Fixlen.alloc st).1.segSize = st.segSize ∧ (Fixlen.alloc st).1.obj = st.obj ∧
    (∀ x, x < st.segFree ∨ st.segSize ≤ x → (Fixlen.alloc st).1.mem x = st.mem x) := by
  obtain ⟨fl, hi⟩ := Fixlen.reach_inv h
  obtain ⟨_, a2, a3, a4, a5, _⟩ := Fixlen.alloc_res hi
  refine ⟨?_, a3, a2, a4, a5⟩
  intro s hs
  have key : ∀ st1, Fixlen.extend st = some st1 → s ∈ st1.subs → s ∈ st.subs ∨ st.segFree ≤ s.aoff := by
    intro st1 he hs
    obtain ⟨n, t, ht, rfl⟩ := Fixlen.extend_some he
    obtain ⟨_, f, e, _⟩ := Fixlen.initSubarea_some hi.seg.1 ht
    rw [makeFreelist_subs, e] at hs
    rcases List.mem_append.1 hs with hs | hs
    · exact .inl hs
    · simp only [List.mem_singleton] at hs; subst hs; exact .inr (Nat.le_refl _)
  unfold Fixlen.alloc at hs
  split_ifs at hs with h0
  · cases he : Fixlen.extend st with
    | none => rw [he] at hs; exact .inl hs
    | some st1 =>
      rw [he] at hs; simp only at hs
      split_ifs at hs
      · exact key st1 he hs
      · exact key st1 he hs
  · exact .inl hs

/-! ## Operations on the segment -/

theorem put_eq {L : Live} {i a n : Nat} {Li : Nat → Option Nat} (h : ∀ b, Li b = if b = a then some n else L i b) :
    (fun j => if j = i then Li else L j) = L.put i a n := by
  funext j b
  by_cases e : j = i
  · subst e; simp only [if_true, Live.put, true_and]; exact h b
  · simp [Live.put, e]

theorem same_eq {L : Live} {i : Nat} : (fun j => if j = i then L i else L j) = L := by
  funext j; by_cases e : j = i
  · subst e; simp
  · simp [e]

theorem del_eq {L : Live} {i a : Nat} {Li : Nat → Option Nat} (h : ∀ b, Li b = if b = a then none else L i b) :
    (fun j => if j = i then Li else L j) = L.del i a := by
  funext j b
  by_cases e : j = i
  · subst e; simp only [if_true, Live.del, true_and]; exact h b
  · simp [Live.del, e]

theorem Inv.alloc {hdr : Nat} {db db' : DB} {L : Live} (h : Inv hdr db L) {i n : Nat} (hn : n < 2^37) {r : Option Nat} (ha : alloc db i n = (db', r)) :
    (∀ a, r = some a → Inv hdr db' (L.put i a (words db i n))) ∧ (r = none → Inv hdr db' L) := by
  unfold Segment.alloc at ha
  cases hA : db.areas[i]? with
  | none =>
    rw [hA] at ha; simp only [Prod.mk.injEq] at ha
    obtain ⟨rfl, rfl⟩ := ha
    exact ⟨fun a e => (by cases e), fun _ => h⟩
  | some A =>
    cases A with
    | var fb subs =>
      rw [hA] at ha; simp only [Prod.mk.injEq] at ha
      obtain ⟨rfl, rfl⟩ := ha
      have hr : Varlen.Reach (db.var fb subs) (L i) := h.area i _ hA
      obtain ⟨v1, v2, v3⟩ := var_alloc hr n
      have fr := (Varlen.C09_alloc_frame hr n).2
      generalize hq : Varlen.alloc (db.var fb subs) n = q at v1 v2 v3 fr ⊢
      obtain ⟨st, r⟩ := q
      have hw : words db i n = n := by unfold words; rw [hA]
      have go : ∀ Li, Varlen.Reach st Li → Inv hdr (db.setVar i st) (fun j => if j = i then Li else L j) := by
        intro Li hr'
        obtain ⟨c1, c2, c3⟩ := var_chunk hr'
        have e : st = ⟨st.mem, st.fb, st.subs, st.segFree, db.size⟩ := by
          have : st.segSize = db.size := v3
          rw [← this]
        refine h.step (A' := .var st.fb st.subs) (mem' := st.mem) (free' := st.segFree) hA v2 c2 ?_ (fun x hx hin => fr x (.inl hx) hin) ?_ ?_ (fun s hs => (c1 s hs).2)
        · have : st.segSize = db.size := v3
          omega
        · show Varlen.Reach _ _
          rw [← e]; exact hr'
        · intro s hs
          rcases v1 s hs with h | h
          · exact .inl h
          · have := (c1 s hs).1
            have hf : db.free ≤ s.off := h
            exact .inr (by omega)
      constructor
      rotate_left
      · rintro rfl
        have := go (L i) (.allocFail hr hn hq)
        rwa [same_eq] at this
      · rintro a rfl
        have := go _ (.alloc hr hn hq)
        rw [hw, ← put_eq (Li := Varlen.Live.put (L i) a n) (fun b => rfl)]
        exact this
    | fix obj fl subs =>
      rw [hA] at ha; simp only [Prod.mk.injEq] at ha
      obtain ⟨rfl, rfl⟩ := ha
      obtain ⟨U, hr, hl⟩ := h.area i _ hA
      have hr : Fixlen.Reach (db.fix obj fl subs) U := hr
      obtain ⟨v1, v2, v3, v4, v5⟩ := fix_alloc hr
      have fresh : ∀ st' a, Fixlen.alloc (db.fix obj fl subs) = (st', some a) → ¬ U a := fun st' a e => (Fixlen.C11_fresh hr e).1
      generalize hq : Fixlen.alloc (db.fix obj fl subs) = q at v1 v2 v3 v4 v5 fresh ⊢
      obtain ⟨st, r⟩ := q
      have hw : words db i n = obj / 8 := by unfold words; rw [hA]
      have go : ∀ U' Li, Fixlen.Reach st U' → (∀ a n, Li a = some n ↔ U' a ∧ n = obj / 8) → Inv hdr (db.setFix i st) (fun j => if j = i then Li else L j) := by
        intro U' Li hr' hl'
        obtain ⟨c1, c2, c3⟩ := fix_chunk hr'
        have eo : st.obj = obj := v4
        have es : st.segSize = db.size := v3
        have e : st = ⟨st.mem, st.obj, st.freelist, st.subs, st.segFree, db.size⟩ := by rw [← es]
        refine h.step (A' := .fix st.obj st.freelist st.subs) (mem' := st.mem) (free' := st.segFree) hA v2 c2 (by omega) (fun x hx _ => v5 x (.inl hx)) ?_ v1 c1
        refine ⟨U', ?_, ?_⟩
        · rw [← e]; exact hr'
        · rw [eo]; exact hl'
      constructor
      rotate_left
      · rintro rfl
        have := go U (L i) (.allocFail hr hq) hl
        rwa [same_eq] at this
      · rintro a rfl
        have := go _ (fun b => if b = a then some (obj / 8) else L i b) (.alloc hr hq) (by
          intro b m
          by_cases e : b = a
          · simp only [e, if_true, Option.some.injEq, true_or, true_and]; exact eq_comm
          · simp only [e, if_false, false_or]; exact hl b m)
        rw [hw, ← put_eq (fun b => rfl)]
        exact this

theorem Inv.free {hdr : Nat} {db : DB} {L : Live} (h : Inv hdr db L) {i a n : Nat} (ha : L i a = some n) : Inv hdr (free db i a) (L.del i a) := by
  unfold Segment.free
  cases hA : db.areas[i]? with
  | none => rw [h.noArea i hA] at ha; cases ha
  | some A =>
    cases A with
    | var fb subs =>
      simp only
      have hr : Varlen.Reach (db.var fb subs) (L i) := h.area i _ hA
      obtain ⟨v1, v2, v3⟩ := var_free hr ha
      have fr := (Varlen.C09_free_frame hr ha).2
      have hr' := Varlen.Reach.free hr ha
      generalize (Varlen.free (db.var fb subs) a).1 = st at v1 v2 v3 fr hr' ⊢
      obtain ⟨c1, c2, c3⟩ := var_chunk hr'
      have es : st.segSize = db.size := v3
      have ef : st.segFree = db.free := v2
      have e : st = ⟨st.mem, st.fb, st.subs, st.segFree, db.size⟩ := by rw [← es]
      rw [← del_eq (Li := Varlen.Live.del (L i) a) (fun b => rfl)]
      refine h.step (A' := .var st.fb st.subs) (mem' := st.mem) (free' := st.segFree) hA (by omega) c2 (by omega) (fun x hx hin => fr x (.inl hx) hin) ?_ ?_ (fun s hs => (c1 s hs).2)
      · show Varlen.Reach _ _
        rw [← e]; exact hr'
      · intro s hs
        have e : st.subs = subs := v1
        exact .inl (e ▸ hs)
    | fix obj fl subs =>
      simp only
      obtain ⟨U, hr, hl⟩ := h.area i _ hA
      have hr : Fixlen.Reach (db.fix obj fl subs) U := hr
      have hU : U a := ((hl a n).1 ha).1
      have hr' := Fixlen.Reach.free hr hU
      have hin := Fixlen.C11_inside hr hU
      obtain ⟨fl', hi⟩ := Fixlen.reach_inv hr
      rw [← del_eq (Li := fun b => if b = a then none else L i b) (fun b => rfl)]
      obtain ⟨c1, c2, c3⟩ := fix_chunk hr'
      refine h.step (A' := .fix obj a subs) (mem' := upd db.mem a fl) (free' := db.free) hA (Nat.le_refl _) c2 c3 ?_ ?_ (fun s hs => .inl hs) c1
      · intro x hx hx2
        refine Varlen.upd_ne ?_
        rintro rfl
        obtain ⟨_, _, s, hs, h1, h2, _⟩ := hin
        exact hx2 ⟨s, hs, h1, by have := hi.obj.2.1; omega⟩
      · refine ⟨_, hr', ?_⟩
        intro b m
        by_cases e : b = a
        · simp [e]
        · simp only [e, if_false, ne_eq, not_false_eq_true, true_and]; exact hl b m

/-- A write that only concerns one area, or none. -/
theorem Inv.write {hdr : Nat} {db : DB} {L : Live} (h : Inv hdr db L) {i a n x v : Nat} (ha : L i a = some n) (ho : Own db i a n x) :
    Inv hdr { db with mem := upd db.mem x v } L := by
  obtain ⟨o1, o2, o3⟩ := ho
  obtain ⟨s1, s2, s3, s4, s5⟩ := h.seg
  cases hA : db.areas[i]? with
  | none => rw [h.noArea i hA] at ha; cases ha
  | some A =>
    have res : ∀ Li, AInv (upd db.mem x v) db.free db.size A Li → Li = L i → (¬ InSubs A.subs x → False) → Inv hdr { db with mem := upd db.mem x v } L := by
      intro Li hi e hx
      subst e
      have := h.step (A' := A) (mem' := upd db.mem x v) (free' := db.free) hA (Nat.le_refl _) s3 s4 (by
        intro y hy hy2
        refine Varlen.upd_ne ?_
        rintro rfl
        exact hx hy2) hi (fun s hs => .inl hs) (fun s hs => (h.range i A hA s hs).2)
      rw [same_eq] at this
      have e2 : db.areas.set i A = db.areas := by
        apply List.ext_getElem?
        intro j
        by_cases e : j = i
        · subst e
          rw [List.getElem?_set_self (by rw [List.getElem?_eq_some_iff] at hA; exact hA.1), hA]
        · rw [List.getElem?_set_ne (Ne.symm e)]
      rw [e2] at this
      exact this
    cases A with
    | var fb subs =>
      have hr : Varlen.Reach (db.var fb subs) (L i) := h.area i _ hA
      have e8 : reserved db i = 8 := by unfold reserved; rw [hA]
      rw [e8] at o2
      refine res (L i) (Varlen.Reach.write hr ha o1 o2 o3) rfl ?_
      intro hx
      obtain ⟨_, _, s, hs, h1, h2, _⟩ := Varlen.C08_inside hr ha
      refine hx ⟨s, hs, by omega, ?_⟩
      unfold Varlen.room at h2; omega
    | fix obj fl subs =>
      obtain ⟨U, hr, hl⟩ := h.area i _ hA
      have hr : Fixlen.Reach (db.fix obj fl subs) U := hr
      have e8 : reserved db i = 0 := by unfold reserved; rw [hA]
      rw [e8] at o2
      obtain ⟨hU, rfl⟩ := (hl a n).1 ha
      have hx : x < a + obj := by omega
      refine res (L i) ⟨U, Fixlen.Reach.write hr hU o1 o2 hx, hl⟩ rfl ?_
      intro hx2
      obtain ⟨_, _, s, hs, h1, h2, _⟩ := Fixlen.C11_inside hr hU
      have h2 : a + obj ≤ s.aoff + s.asize := h2
      exact hx2 ⟨s, hs, by omega, by omega⟩

theorem Inv.poke {hdr : Nat} {db : DB} {L : Live} (h : Inv hdr db L) {s len k v : Nat} (hp : (s, len) ∈ db.arrays) (hk : k < len) :
    Inv hdr { db with mem := upd db.mem (s + 8 * k) v } L := by
  obtain ⟨s1, s2, s3, s4, s5⟩ := h.seg
  refine ⟨h.seg, ?_, h.noArea, h.range, h.disj, h.arr, h.arrArea, h.arrPw⟩
  intro j B hB
  refine (h.area j B hB).others (Nat.le_refl _) s3 s4 ?_
  rintro x ⟨t, ht, h1, h2⟩
  refine Varlen.upd_ne ?_
  rintro rfl
  have := h.arrArea _ hp j B hB t ht
  unfold Apart at this; simp only at this; omega

theorem clearArray_below {s : Nat} : ∀ {n j x : Nat} {mem : Nat → Nat}, x < s → clearArray s n mem j x = mem x := by
  intro n
  induction n with
  | zero => intro j x mem _; rfl
  | succ n ih => intro j x mem hx; rw [clearArray, ih hx]; exact Varlen.upd_ne (by omega)

theorem clearArray_above {s : Nat} : ∀ {n j x : Nat} {mem : Nat → Nat}, s + 8 * (j + n) ≤ x → clearArray s n mem j x = mem x := by
  intro n
  induction n with
  | zero => intro j x mem _; rfl
  | succ n ih => intro j x mem h; rw [clearArray, ih (by omega)]; exact Varlen.upd_ne (by omega)

/-- The array of a hash table: what is stored, and where. -/
theorem Inv.hash_mem {hdr : Nat} {db db' : DB} {L : Live} (h : Inv hdr db L) {len : Nat} (hh : initHash db len = some db') :
    db'.size = db.size ∧ db.free + 8 * len ≤ db'.free ∧ db'.free ≤ db.size ∧ ∀ x, x < db.free ∨ db.free + 8 * len ≤ x → db'.mem x = db.mem x := by
  obtain ⟨s1, s2, s3, s4, s5⟩ := h.seg
  unfold initHash at hh
  simp only at hh
  split at hh
  · cases hh
  · rename_i chunk free hc
    obtain ⟨rfl, c2, c3, c4, _⟩ := Varlen.allocChunk_some s3 hc
    injection hh with hh
    rw [s3, if_pos rfl, Nat.add_zero] at hh
    subst hh
    refine ⟨rfl, by show _ ≤ free; omega, by show free ≤ _; omega, ?_⟩
    intro x hx
    rcases hx with hx | hx
    · exact clearArray_below hx
    · exact clearArray_above (by omega)

theorem Inv.hash {hdr : Nat} {db db' : DB} {L : Live} (h : Inv hdr db L) {len : Nat} (hh : initHash db len = some db') : Inv hdr db' L := by
  obtain ⟨s1, s2, s3, s4, s5⟩ := h.seg
  unfold initHash at hh
  simp only at hh
  split at hh
  · cases hh
  · rename_i chunk free hc
    obtain ⟨rfl, c2, c3, c4, _⟩ := Varlen.allocChunk_some s3 hc
    injection hh with hh
    rw [s3, if_pos rfl, Nat.add_zero] at hh
    subst hh
    exact h.array (Nat.le_refl _) c3 s3 (by omega) (by omega) (fun x hx => clearArray_below hx)

theorem Inv.locks {hdr : Nat} {db db' : DB} {L : Live} (h : Inv hdr db L) {q : Bool} (hh : initLocks db q = some db') : Inv hdr db' L := by
  obtain ⟨s1, s2, s3, s4, s5⟩ := h.seg
  unfold initLocks at hh
  cases q with
  | false => simp only [Bool.false_eq_true, if_false, Option.some.injEq] at hh; subst hh; exact h
  | true =>
    simp only [if_true] at hh
    split at hh
    · cases hh
    · rename_i chunk free hc
      obtain ⟨rfl, c2, c3, c4, _⟩ := Varlen.allocChunk_some s3 hc
      injection hh with hh
      subst hh
      exact h.array (mem' := db.mem) (by omega) c3 (by omega) (by omega) (by omega) (fun _ _ => rfl)

theorem initArea_none_eq (db : DB) : initArea db none = (match Varlen.newArea db.mem db.free db.size INITSUB with
    | none => none
    | some st => some { db with mem := st.mem, free := st.segFree, areas := db.areas ++ [.var st.fb st.subs] }) := rfl
theorem initArea_some_eq (db : DB) (o : Nat) : initArea db (some o) = (match Fixlen.newArea db.mem o db.free db.size INITSUB with
    | none => none
    | some st => some { db with mem := st.mem, free := st.segFree, areas := db.areas ++ [.fix st.obj st.freelist st.subs] }) := rfl

theorem initArea_none {db db' : DB} (hh : initArea db none = some db') : ∃ st, Varlen.newArea db.mem db.free db.size INITSUB = some st ∧
    db' = { db with mem := st.mem, free := st.segFree, areas := db.areas ++ [.var st.fb st.subs] } := by
  have e : initArea db none = (match Varlen.newArea db.mem db.free db.size INITSUB with
    | none => none
    | some st => some { db with mem := st.mem, free := st.segFree, areas := db.areas ++ [.var st.fb st.subs] }) := rfl
  rw [e] at hh
  revert hh
  generalize Varlen.newArea db.mem db.free db.size INITSUB = r
  intro hh
  cases r with
  | none => cases hh
  | some st => injection hh with hh; exact ⟨st, rfl, hh.symm⟩

theorem initArea_some {db db' : DB} {o : Nat} (hh : initArea db (some o) = some db') : ∃ st, Fixlen.newArea db.mem o db.free db.size INITSUB = some st ∧
    db' = { db with mem := st.mem, free := st.segFree, areas := db.areas ++ [.fix st.obj st.freelist st.subs] } := by
  have e : initArea db (some o) = (match Fixlen.newArea db.mem o db.free db.size INITSUB with
    | none => none
    | some st => some { db with mem := st.mem, free := st.segFree, areas := db.areas ++ [.fix st.obj st.freelist st.subs] }) := rfl
  rw [e] at hh
  revert hh
  generalize Fixlen.newArea db.mem o db.free db.size INITSUB = r
  intro hh
  cases r with
  | none => cases hh
  | some st => injection hh with hh; exact ⟨st, rfl, hh.symm⟩

theorem Inv.newArea {hdr : Nat} {db db' : DB} {L : Live} (h : Inv hdr db L) {k : Option Nat} (hk : ∀ o, k = some o → o % 8 = 0 ∧ 0 < o ∧ o ≤ 8192)
    (hh : initArea db k = some db') : Inv hdr db' L := by
  obtain ⟨s1, s2, s3, s4, s5⟩ := h.seg
  cases k with
  | none =>
    obtain ⟨st, hst, rfl⟩ := initArea_none hh
    have hr := Varlen.Reach.new s3 (by omega) s4 s5 hst
    obtain ⟨g, _, _, e1, e2, e3, e4, _⟩ := Varlen.newArea_good s3 (by omega) s4 s5 hst
    obtain ⟨c1, c2, c3⟩ := var_chunk hr
    refine h.push (A' := .var st.fb st.subs) e2 c2 (by omega) (fun x hx => e3 x (.inl hx)) ?_ ?_
    · show Varlen.Reach _ _
      rw [← e1]; exact hr
    · intro s hs
      have := c1 s hs; have := e4 s hs
      exact ⟨by omega, by omega⟩
  | some o =>
    obtain ⟨o1, o2, o3⟩ := hk o rfl
    obtain ⟨st, hst, rfl⟩ := initArea_some hh
    have hr := Fixlen.Reach.new o1 o2 o3 s3 (by omega) s4 hst
    obtain ⟨c1, c2, c3⟩ := fix_chunk hr
    unfold Fixlen.newArea at hst
    split at hst
    · cases hst
    · rename_i t ht
      injection hst with hst
      have hi0 : Fixlen.Inv ⟨db.mem, o, 0, [], db.free, db.size⟩ (fun _ => False) [] := by
        refine ⟨⟨o1, o2, o3⟩, by simp, by simp, ⟨s3, by simp only; omega, s4⟩, rfl, trivial, by simp, ?_, by simp⟩
        intro x
        constructor
        · rintro ⟨s, hs, _⟩; simp at hs
        · simp
      obtain ⟨_, g1, g2, g3, g4, _⟩ := hi0.grow ht
      obtain ⟨_, f, e, _⟩ := Fixlen.initSubarea_some (st := ⟨db.mem, o, 0, [], db.free, db.size⟩) s3 ht
      rw [hst] at g1 g2 g3 g4
      have es : st.subs = [⟨INITSUB, db.free, INITSUB - INITSUB % 32, db.free⟩] := by
        rw [← hst, makeFreelist_subs, e]; rfl
      refine h.push (A' := .fix st.obj st.freelist st.subs) g3 c2 ?_ (fun x hx => g4 x (.inl hx)) ?_ ?_
      · have : st.segSize = db.size := g1
        omega
      · refine ⟨fun _ => False, ?_, ?_⟩
        · have : st.segSize = db.size := g1
          rw [← this]; exact hr
        · simp
      · intro s hs
        have := c1 s hs
        rw [show Area.subs (.fix st.obj st.freelist st.subs) = st.subs from rfl, es] at hs
        simp only [List.mem_singleton] at hs
        subst hs
        exact ⟨Nat.le_refl _, this⟩

/-- A new area is written inside the unused part of the segment. -/
theorem Inv.newArea_mem {hdr : Nat} {db db' : DB} {L : Live} (h : Inv hdr db L) {k : Option Nat} (hk : ∀ o, k = some o → o % 8 = 0 ∧ 0 < o ∧ o ≤ 8192)
    (hh : initArea db k = some db') : db'.size = db.size ∧ db.free ≤ db'.free ∧ ∀ x, x < db.free ∨ db.size ≤ x → db'.mem x = db.mem x := by
  obtain ⟨s1, s2, s3, s4, s5⟩ := h.seg
  cases k with
  | none =>
    obtain ⟨st, hst, rfl⟩ := initArea_none hh
    obtain ⟨g, _, _, e1, e2, e3, e4, _⟩ := Varlen.newArea_good s3 (by omega) s4 s5 hst
    exact ⟨rfl, e2, e3⟩
  | some o =>
    obtain ⟨o1, o2, o3⟩ := hk o rfl
    obtain ⟨st, hst, rfl⟩ := initArea_some hh
    unfold Fixlen.newArea at hst
    split at hst
    · cases hst
    · rename_i t ht
      injection hst with hst
      have hi0 : Fixlen.Inv ⟨db.mem, o, 0, [], db.free, db.size⟩ (fun _ => False) [] := by
        refine ⟨⟨o1, o2, o3⟩, by simp, by simp, ⟨s3, by simp only; omega, s4⟩, rfl, trivial, by simp, ?_, by simp⟩
        intro x
        constructor
        · rintro ⟨s, hs, _⟩; simp at hs
        · simp
      obtain ⟨_, g1, g2, g3, g4, _⟩ := hi0.grow ht
      rw [hst] at g3 g4
      exact ⟨rfl, g3, g4⟩

theorem Inv.newAreas_mem {hdr : Nat} {L : Live} : ∀ {ks : List (Option Nat)} {db db' : DB}, Inv hdr db L →
    (∀ o, some o ∈ ks → o % 8 = 0 ∧ 0 < o ∧ o ≤ 8192) → initAreas db ks = some db' →
    db'.size = db.size ∧ db.free ≤ db'.free ∧ ∀ x, x < db.free ∨ db.size ≤ x → db'.mem x = db.mem x := by
  intro ks
  induction ks with
  | nil => intro db db' h _ hh; injection hh with hh; subst hh; exact ⟨rfl, Nat.le_refl _, fun _ _ => rfl⟩
  | cons k ks ih =>
    intro db db' h hk hh
    rw [initAreas] at hh
    split at hh
    · cases hh
    · rename_i db1 h1
      have hk1 : ∀ o, k = some o → o % 8 = 0 ∧ 0 < o ∧ o ≤ 8192 := fun o e => hk o (by simp [e])
      obtain ⟨a1, a2, a3⟩ := h.newArea_mem hk1 h1
      obtain ⟨b1, b2, b3⟩ := ih (h.newArea hk1 h1) (fun o ho => hk o (by simp [ho])) hh
      refine ⟨b1.trans a1, by omega, ?_⟩
      intro x hx
      rw [b3 x (by omega), a3 x hx]

theorem Inv.newAreas {hdr : Nat} {L : Live} : ∀ {ks : List (Option Nat)} {db db' : DB}, Inv hdr db L →
    (∀ o, some o ∈ ks → o % 8 = 0 ∧ 0 < o ∧ o ≤ 8192) → initAreas db ks = some db' → Inv hdr db' L := by
  intro ks
  induction ks with
  | nil => intro db db' h _ hh; injection hh with hh; subst hh; exact h
  | cons k ks ih =>
    intro db db' h hk hh
    rw [initAreas] at hh
    split at hh
    · cases hh
    · rename_i db1 h1
      exact ih (h.newArea (fun o e => hk o (by simp [e])) h1) (fun o ho => hk o (by simp [ho])) hh

theorem Inv.start {mem : Nat → Nat} {hdr f size : Nat} (h0 : 0 < hdr) (h1 : hdr ≤ f) (h8 : f % 8 = 0) (hs : f ≤ size) (hz : size ≤ 2^40) :
    Inv hdr ⟨mem, f, size, [], []⟩ (fun _ _ => none) := by
  refine ⟨⟨h0, h1, h8, hs, hz⟩, ?_, fun _ _ _ => rfl, ?_, ?_, ?_, ?_, ?_⟩ <;> simp

theorem initAreas_small {mem : Nat → Nat} {f size : Nat} (h8 : f % 8 = 0) (h : size < f) : initAreas ⟨mem, f, size, [], []⟩ layout = none := by
  unfold layout initAreas initArea
  have : Varlen.newArea mem f size INITSUB = none := by
    unfold Varlen.newArea Varlen.initSubarea
    have hc : allocChunk f size INITSUB = none := by
      cases hc : allocChunk f size INITSUB with
      | none => rfl
      | some p =>
        obtain ⟨c, f'⟩ := p
        obtain ⟨rfl, c2, c3, c4, _⟩ := Varlen.allocChunk_some h8 hc
        omega
    simp only [hc]
    split_ifs <;> rfl
  simp only [this]

theorem Inv.initDb {mem : Nat → Nat} {hdr size len : Nat} {q : Bool} {db : DB} (h0 : 0 < hdr) (hz : size ≤ 2^40)
    (hh : initDb mem hdr size len q = some db) : Inv hdr db (fun _ _ => none) := by
  unfold Segment.initDb at hh
  simp only at hh
  generalize hf : hdr + (if 8 - hdr % 8 = 8 then 0 else 8 - hdr % 8) = f at hh
  have f1 : hdr ≤ f ∧ f % 8 = 0 := by split_ifs at hf <;> omega
  by_cases hs : size < f
  · rw [initAreas_small f1.2 hs] at hh; cases hh
  · have i0 := Inv.start (mem := mem) h0 f1.1 f1.2 (by omega : f ≤ size) hz
    split at hh
    · cases hh
    · rename_i db1 h1
      have i1 := i0.newAreas (by
        intro o ho
        unfold layout at ho
        simp at ho
        omega) h1
      split at hh
      · cases hh
      · rename_i db2 h2
        exact (i1.hash h2).locks hh

theorem reach_inv {hdr : Nat} {db : DB} {L : Live} (h : Reach hdr db L) : Inv hdr db L := by
  induction h with
  | init h0 hz hh => exact Inv.initDb h0 hz hh
  | alloc _ hn ha ih => exact (ih.alloc hn ha).1 _ rfl
  | allocFail _ hn ha ih => exact (ih.alloc hn ha).2 rfl
  | free _ ha ih => exact ih.free ha
  | write _ ha ho ih => exact ih.write ha ho
  | hash _ hh ih => exact ih.hash hh
  | poke _ hp hk ih => exact ih.poke hp hk

end WG.Segment
