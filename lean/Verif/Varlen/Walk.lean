import Verif.Varlen.Props
/-!
# C15: iterating over the records of the record area
-/
namespace WG.Varlen

/-- The loop locating the subarea of an offset, Db/dbdata.c lines 387-394. -/
def locate (subs : List Sub) (x : Nat) : Option Nat := subs.findIdx? fun s => s.aoff ≤ x ∧ x < s.off + s.size

/-- The loop of `wg_get_next_raw_record`, Db/dbdata.c lines 366-411. `free` is `freemarker`. The first argument bounds the number
of rounds: result `none` if it is used up (never the case, see `nextRaw_ends`); `some none` is NULL. -/
def walkF (st : St) : Nat → Nat → Bool → Option (Option Nat)
  | 0, _, _ => none
  | k + 1, x, free =>
    let x := x + (if free then clr (st.mem x) else usedSize (st.mem x))
    let h := st.mem x
    if isNormalUsed h then some (some x)
    else if isFree h then walkF st k x true
    else if st.mem (x + 8) = 1 then walkF st k x false
    else match locate st.subs x with
      | none => some none
      | some i => match st.subs[i + 1]? with
        | none => some none
        | some t => walkF st k t.aoff false

/-- `wg_get_next_raw_record`, Db/dbdata.c lines 338-412. The bound is generous: every round advances. -/
def nextRaw (st : St) (x : Nat) : Option (Option Nat) :=
  if isFree (st.mem x) then some none else walkF st (st.segSize + 1) x false

/-- `wg_get_first_raw_record`, Db/dbdata.c lines 317-333. -/
def firstRaw (st : St) : Option (Option Nat) :=
  match st.subs with
  | [] => some none
  | s :: _ => nextRaw st s.aoff

/-- `is_special_record`, Db/dbdata.h lines 270-271: bit `RECORD_META_NOTDATA` (1) of the meta word, the second of the record. -/
def notData (st : St) (x : Nat) : Bool := st.mem (x + 8) % 2 == 1

/-- The loop of `wg_get_next_record`, Db/dbdata.c lines 306-312. -/
def nextDataF (st : St) : Nat → Nat → Option (Option Nat)
  | 0, _ => none
  | k + 1, x => match nextRaw st x with
    | none => none
    | some none => some none
    | some (some y) => if notData st y then nextDataF st k y else some (some y)

def nextData (st : St) (x : Nat) : Option (Option Nat) := nextDataF st (st.segSize + 1) x

/-- `wg_get_first_record`, Db/dbdata.c lines 296-301. -/
def firstData (st : St) : Option (Option Nat) :=
  match firstRaw st with
  | none => none
  | some none => some none
  | some (some y) => if notData st y then nextData st y else some (some y)

/-! ## Specification -/

/-- The records met by a caller who starts with `first` and follows `next` until NULL; `none` if that does not end within `k`
records. -/
def visitFrom (next : Nat → Option (Option Nat)) : Nat → Option (Option Nat) → Option (List Nat)
  | _, none => none
  | _, some none => some []
  | 0, some (some _) => none
  | k + 1, some (some x) => (visitFrom next k (next x)).map (x :: ·)

/-- Live objects with offsets from `a` on, in order. -/
def liveFrom (st : St) (L : Live) (p : Nat → Bool) (a : Nat) : List Nat :=
  (List.range' a (st.segSize - a)).filter fun x => (L x).isSome && p x

/-! ## Chunks in order -/

def Pw (st : St) : Prop := st.subs.Pairwise fun s t => s.off + s.size ≤ t.off

theorem Pw.ext {st st' : St} {g : G} (h : Pw st) (G0 : Good st g) (he : ExtRel st st') : Pw st' := by
  obtain ⟨s, h1, h2, _⟩ := he
  unfold Pw
  rw [h1, List.pairwise_append]
  refine ⟨h, by simp, ?_⟩
  intro a ha b hb
  simp only [List.mem_singleton] at hb
  subst hb
  have := (G0.inv.chunk a ha).2.2.1
  omega

theorem allocF_pw : ∀ (k : Nat) {st : St} {g : G}, Good st g → ∀ {wanted : Nat}, wanted % 8 = 0 → Pw st → Pw (allocF k st wanted).1 := by
  intro k
  induction k with
  | zero => intro st g _ _ _ h; exact h
  | succ k ih =>
    intro st g G0 wanted hw h
    unfold allocF
    cases hh : allocHere st wanted with
    | some r =>
      simp only
      obtain ⟨a, h1, g1, h2, h3, h4, h5, h6⟩ := allocHere_res G0 hw hh
      unfold Pw; rw [h6.1]; exact h
    | none =>
      simp only
      cases he : extend st (usedBytes wanted) with
      | none => exact h
      | some st1 =>
        simp only
        obtain ⟨⟨g1, q1, q2, q3⟩, q4, _, q5⟩ := extend_res G0 he
        exact ih q1 hw (h.ext G0 q4)

theorem newArea_one {mem : Nat → Nat} {sf ss size : Nat} {st : St} (h8 : sf % 8 = 0) (h : newArea mem sf ss size = some st) :
    ∃ s, st.subs = [s] := by
  unfold newArea at h
  split at h
  · cases h
  · rename_i t ht
    injection h with h
    obtain ⟨e1, f, e2, e3, e4, e5⟩ := initSubarea_some h8 ht
    subst e2; subst h
    exact ⟨_, rfl⟩

theorem reach_pw {st : St} {L : Live} (h : Reach st L) : Pw st ∧ st.subs ≠ [] := by
  induction h with
  | new h8 h0 hs hz h =>
    obtain ⟨s, e⟩ := newArea_one h8 h
    unfold Pw; rw [e]; simp
  | alloc hr hn h ih =>
    rename_i st st' L n a
    obtain ⟨g, hg⟩ := reach_inv hr
    rw [alloc_nat] at h
    have := allocF_pw 65 hg.toGood (wanted := 8 * n) (by omega) ih.1
    obtain ⟨⟨⟨l, e⟩, _⟩, _⟩ := allocF_res 65 hg.toGood (wanted := 8 * n) (by omega)
    rw [h] at this e
    exact ⟨this, by simp only at e; rw [e]; simp [ih.2]⟩
  | allocFail hr hn h ih =>
    rename_i st st' L n
    obtain ⟨g, hg⟩ := reach_inv hr
    rw [alloc_nat] at h
    have := allocF_pw 65 hg.toGood (wanted := 8 * n) (by omega) ih.1
    obtain ⟨⟨⟨l, e⟩, _⟩, _⟩ := allocF_res 65 hg.toGood (wanted := 8 * n) (by omega)
    rw [h] at this e
    exact ⟨this, by simp only at e; rw [e]; simp [ih.2]⟩
  | free hr ha ih =>
    rename_i st L a n
    obtain ⟨g, hg⟩ := reach_inv hr
    obtain ⟨w, h1, _⟩ := hg.live ha
    obtain ⟨_, ⟨g1, q1, q2, q3, q4⟩, _⟩ := free_res hg.toGood h1
    unfold Pw; rw [q4.1]; exact ih
  | write _ _ _ _ _ ih => exact ih
  | others _ _ _ _ _ ih => exact ih

/-! ## One step -/

/-- `r` is the first used block after `x`. -/
def NextIs (g : G) (x : Nat) (r : Option Nat) : Prop :=
  match r with
  | none => ∀ y, x < y → usedAt g y = none
  | some y => x < y ∧ usedAt g y ≠ none ∧ ∀ z, x < z → z < y → usedAt g z = none

theorem NextIs.of {g : G} {x x' : Nat} {r : Option Nat} (h : NextIs g x' r) (hx : x ≤ x') (hno : ∀ z, x < z → z ≤ x' → usedAt g z = none) :
    NextIs g x r := by
  cases r with
  | none => 
    intro y hy
    rcases Nat.lt_or_ge x' y with h1 | h1
    · exact h y h1
    · exact hno y hy h1
  | some y =>
    obtain ⟨h1, h2, h3⟩ := h
    refine ⟨by omega, h2, ?_⟩
    intro z hz1 hz2
    rcases Nat.lt_or_ge x' z with h4 | h4
    · exact h3 z h4 hz2
    · exact hno z hz1 h4

theorem locate_spec {st : St} {g : G} (h : Inv st g) (hp : Pw st) {i : Nat} (hi : i < st.subs.length) :
    locate st.subs (st.subs[i]).hi = some i := by
  have hm := List.getElem_mem hi
  have c := h.chunk _ hm
  have al := h.geo.subs_al _ hm
  unfold locate
  rw [List.findIdx?_eq_some_iff_getElem]
  refine ⟨hi, ?_, ?_⟩
  · simp only [decide_eq_true_eq]
    unfold Sub.hi; omega
  · intro j hj
    simp only [decide_eq_true_eq, Bool.not_eq_true', decide_eq_false_iff_not]
    have hp' : (st.subs[j]'(by omega)).off + (st.subs[j]'(by omega)).size ≤ (st.subs[i]).off :=
      List.pairwise_iff_getElem.1 hp j i (by omega) hi hj
    unfold Sub.hi; omega

/-- Where the walk may stand. -/
def Stand (st : St) (g : G) (x : Nat) (free : Bool) : Prop :=
  (free = false ∧ ∃ s ∈ st.subs, x = s.aoff) ∨ ∃ b, g.blk x = some b ∧ (free = true ↔ b.kind = .free)

theorem used_in_sub {st : St} {g : G} (h : Inv st g) {y : Nat} (hy : usedAt g y ≠ none) : ∃ s ∈ st.subs, s.lo ≤ y ∧ y + 32 ≤ s.hi := by
  cases e : usedAt g y with
  | none => exact absurd e hy
  | some w =>
    obtain ⟨n, hb⟩ := usedAt_some.1 e
    have := h.geo.al _ _ hb
    obtain ⟨s, hs, h1, h2⟩ := h.geo.inn _ _ hb
    simp only at this h2
    exact ⟨s, hs, h1, by omega⟩

theorem walk_res {st : St} {g : G} (G0 : Good st g) (hm : Mk st) (hp : Pw st) : ∀ (k x : Nat) (free : Bool), st.segSize < x + k →
    Stand st g x free → ∃ r, walkF st k x free = some r ∧ NextIs g x r := by
  intro k
  induction k with
  | zero =>
    intro x free hk hs
    exfalso
    have hz := G0.inv.segAl.2.2.1
    rcases hs with ⟨_, s, hs, rfl⟩ | ⟨b, hb, _⟩
    · have := G0.inv.chunk s hs
      have := G0.inv.geo.subs_al s hs
      omega
    · obtain ⟨s, hs, h1, h2⟩ := G0.inv.geo.inn _ _ hb
      have := G0.inv.chunk s hs
      have := G0.inv.geo.subs_al s hs
      have := G0.inv.geo.al _ _ hb
      unfold Sub.hi at h2
      omega
  | succ k ih =>
    intro x free hk hs
    -- the next position and what is there
    have step : ∃ x', x < x' ∧ (x + if free then clr (st.mem x) else usedSize (st.mem x)) = x' ∧ (∀ z, x < z → z < x' → usedAt g z = none) ∧
        ((∃ s ∈ st.subs, x' = s.hi) ∨ ∃ b, g.blk x' = some b) := by
      rcases hs with ⟨rfl, s, hs, rfl⟩ | ⟨b, hb, hf⟩
      · refine ⟨s.lo, by unfold Sub.lo; omega, ?_, ?_, .inr (G0.inv.geo.first s hs)⟩
        · rw [(G0.inv.cont.marker s hs).1]
          simp only [Bool.false_eq_true, if_false]
          show s.aoff + usedSize 35 = s.aoff + 32
          rfl
        · intro z h1 h2
          by_contra hz
          obtain ⟨t, ht, h3, h4⟩ := used_in_sub G0.inv hz
          have a1 := G0.inv.geo.subs_al s hs
          have a2 := G0.inv.geo.subs_al t ht
          unfold Sub.lo Sub.hi at *
          rcases G0.inv.geo.sub_cases hs ht with rfl | e | e <;> omega
      · have al := G0.inv.geo.al _ _ hb
        obtain ⟨n, kd⟩ := b
        simp only at al
        refine ⟨x + n, by omega, ?_, ?_, ?_⟩
        · congr 1
          cases kd with
          | hole => exact absurd hb (G0.nohole _ _)
          | free =>
            rw [hf.2 rfl, (G0.inv.cont.free _ _ hb).1]
            simp only [if_true]
            exact clr_of al.2.1 (by omega)
          | dv =>
            have : free = false := by cases free with
              | false => rfl
              | true => exact absurd (hf.1 rfl) (by simp)
            rw [this, (G0.inv.cont.dv _ _ hb).1]
            simp only [Bool.false_eq_true, if_false]
            rw [usedSize_of al.2.1 (by omega)]
            unfold objSize; omega
          | used w =>
            have : free = false := by cases free with
              | false => rfl
              | true => exact absurd (hf.1 rfl) (by simp)
            rw [this]
            simp only [Bool.false_eq_true, if_false]
            obtain ⟨hw, hn, hm⟩ := G0.inv.cont.used _ _ _ hb
            rcases hm with hm | hm <;> rw [hm, hn]
            · exact usedSize_of (k := 0) hw (by omega)
            · exact usedSize_of hw (by omega)
        · intro z h1 h2
          cases e : usedAt g z with
          | none => rfl
          | some w =>
            obtain ⟨m, hz⟩ := usedAt_some.1 e
            have := G0.inv.geo.disj _ _ _ _ hb hz h1
            simp only at this; omega
        · rcases G0.inv.geo.next _ _ hb with ⟨s, hs, h1⟩ | ⟨c, hc⟩
          · exact .inl ⟨s, hs, h1⟩
          · exact .inr ⟨c, hc⟩
    obtain ⟨x', hlt, hx', hno, hcase⟩ := step
    unfold walkF
    simp only
    rw [hx']
    have notused : ∀ z, x < z → z ≤ x' → usedAt g x' = none → usedAt g z = none := by
      intro z h1 h2 h3
      rcases Nat.lt_or_ge z x' with h4 | h4
      · exact hno z h1 h4
      · have : z = x' := by omega
        rw [this]; exact h3
    rcases hcase with ⟨s, hs, rfl⟩ | ⟨b, hb⟩
    · -- end marker
      have hb : g.blk s.hi = none := by
        cases e : g.blk s.hi with
        | none => rfl
        | some b =>
          have := (G0.inv.geo.marker_out hs e).2
          have := G0.inv.geo.al _ _ e
          omega
      have hu : usedAt g s.hi = none := by
        cases e : usedAt g s.hi with
        | none => rfl
        | some w => obtain ⟨m, hz⟩ := usedAt_some.1 e; rw [hb] at hz; cases hz
      rw [(G0.inv.cont.marker s hs).2, hm s hs]
      rw [if_neg (by decide), if_neg (by decide), if_neg (by decide)]
      obtain ⟨i, hi, rfl⟩ := List.getElem_of_mem hs
      rw [locate_spec G0.inv hp hi]
      simp only
      have a1 := G0.inv.geo.subs_al _ hs
      cases e : st.subs[i + 1]? with
      | none =>
        refine ⟨none, rfl, ?_⟩
        apply NextIs.of (x' := (st.subs[i]).hi) _ (by omega) (fun z h1 h2 => notused z h1 h2 hu)
        intro y hy
        by_contra hz
        obtain ⟨t, ht, h3, h4⟩ := used_in_sub G0.inv hz
        obtain ⟨j, hj, rfl⟩ := List.getElem_of_mem ht
        rw [List.getElem?_eq_none_iff] at e
        have a2 := G0.inv.geo.subs_al _ ht
        rcases Nat.lt_or_ge j i with h5 | h5
        · have := List.pairwise_iff_getElem.1 G0.inv.geo.subs_pw j i hj hi h5
          unfold Sub.lo Sub.hi at *
          omega
        · have : j = i := by omega
          subst this
          omega
      | some t =>
        simp only
        obtain ⟨hj, e⟩ := List.getElem?_eq_some_iff.1 e
        have ht : t ∈ st.subs := by rw [← e]; exact List.getElem_mem _
        have a2 := G0.inv.geo.subs_al _ ht
        have hpw : (st.subs[i]).aoff + (st.subs[i]).asize ≤ t.aoff := by
          rw [← e]; exact List.pairwise_iff_getElem.1 G0.inv.geo.subs_pw i (i+1) hi hj (by omega)
        have hlt2 : (st.subs[i]).hi < t.aoff := by unfold Sub.hi; omega
        obtain ⟨r, hr, hn⟩ := ih t.aoff false (by omega) (.inl ⟨rfl, t, ht, rfl⟩)
        refine ⟨r, hr, hn.of (by omega) ?_⟩
        intro z h1 h2
        rcases Nat.lt_or_ge (st.subs[i]).hi z with h5 | h5
        · by_contra hz
          obtain ⟨u, hu', h3, h4⟩ := used_in_sub G0.inv hz
          obtain ⟨j, hj', rfl⟩ := List.getElem_of_mem hu'
          have a3 := G0.inv.geo.subs_al _ hu'
          rcases Nat.lt_trichotomy j i with h6 | h6 | h6
          · have := List.pairwise_iff_getElem.1 G0.inv.geo.subs_pw j i hj' hi h6
            unfold Sub.lo Sub.hi at *
            omega
          · subst h6; omega
          · have : t.aoff ≤ (st.subs[j]).aoff := by
              rcases Nat.lt_or_ge (i+1) j with h7 | h7
              · have := List.pairwise_iff_getElem.1 G0.inv.geo.subs_pw (i+1) j hj hj' h7
                rw [e] at this; omega
              · have : j = i + 1 := by omega
                subst this; rw [e]; exact Nat.le_refl _
            unfold Sub.lo at h3; omega
        · exact notused z h1 h5 hu
    · have al := G0.inv.geo.al _ _ hb
      obtain ⟨n, kd⟩ := b
      simp only at al
      cases kd with
      | hole => exact absurd hb (G0.nohole _ _)
      | used w =>
        obtain ⟨hw, _, hmm⟩ := G0.inv.cont.used _ _ _ hb
        have : isNormalUsed (st.mem x') = true := by
          rcases hmm with e | e <;> rw [e] <;> simp [isNormalUsed] <;> omega
        rw [if_pos this]
        exact ⟨some x', rfl, hlt, by rw [usedAt_some.2 ⟨n, hb⟩]; simp, hno⟩
      | free =>
        have hu := usedAt_of hb (by simp)
        rw [(G0.inv.cont.free _ _ hb).1]
        rw [if_neg (by simp [isNormalUsed]; omega), if_pos (by simp [isFree]; omega)]
        obtain ⟨r, hr, hn⟩ := ih x' true (by omega) (.inr ⟨_, hb, by simp⟩)
        exact ⟨r, hr, hn.of (by omega) (fun z h1 h2 => notused z h1 h2 hu)⟩
      | dv =>
        have hu := usedAt_of hb (by simp)
        obtain ⟨d1, d2⟩ := G0.inv.cont.dv _ _ hb
        rw [d1, d2]
        rw [if_neg (by simp [isNormalUsed]; omega), if_neg (by simp [isFree]; omega), if_pos rfl]
        obtain ⟨r, hr, hn⟩ := ih x' false (by omega) (.inr ⟨_, hb, by simp⟩)
        exact ⟨r, hr, hn.of (by omega) (fun z h1 h2 => notused z h1 h2 hu)⟩

/-! ## Whole iterations -/

/-- `r` is the first place after `x` where `q` holds. -/
def NextP (q : Nat → Bool) (x : Nat) (r : Option Nat) : Prop :=
  match r with
  | none => ∀ y, x < y → q y = false
  | some y => x < y ∧ q y = true ∧ ∀ z, x < z → z < y → q z = false

theorem filter_none {q : Nat → Bool} : ∀ {n a : Nat}, (∀ y, a ≤ y → y < a + n → q y = false) → (List.range' a n).filter q = [] := by
  intro n
  induction n with
  | zero => intro a _; rfl
  | succ n ih =>
    intro a h
    rw [List.range'_succ, List.filter_cons, h a (by omega) (by omega)]
    simp only [Bool.false_eq_true, if_false]
    exact ih (fun y h1 h2 => h y (by omega) (by omega))

theorem filter_split {q : Nat → Bool} {N a b : Nat} (hab : a ≤ b) (hb : b ≤ N) (h : ∀ y, a ≤ y → y < b → q y = false) :
    (List.range' a (N - a)).filter q = (List.range' b (N - b)).filter q := by
  have e : N - a = (b - a) + (N - b) := by omega
  rw [e, ← List.range'_append_1, List.filter_append, filter_none (fun y h1 h2 => h y h1 (by omega))]
  have : a + (b - a) = b := by omega
  rw [this, List.nil_append]

theorem visit_gen {N : Nat} {q : Nat → Bool} {next : Nat → Option (Option Nat)} (hq : ∀ y, q y = true → y < N)
    (hn : ∀ x, q x = true → ∃ r, next x = some r ∧ NextP q x r) : ∀ (k x : Nat) (r : Option Nat), N ≤ x + 1 + k → x < N → NextP q x r →
    visitFrom next k (some r) = some ((List.range' (x + 1) (N - (x + 1))).filter q) := by
  intro k
  induction k with
  | zero =>
    intro x r hk hx h
    cases r with
    | none =>
      rw [filter_none (fun y h1 h2 => h y (by omega))]
      rfl
    | some y =>
      have := hq y h.2.1
      have := h.1
      omega
  | succ k ih =>
    intro x r hk hx h
    cases r with
    | none =>
      rw [filter_none (fun y h1 h2 => h y (by omega))]
      rfl
    | some y =>
      obtain ⟨h1, h2, h3⟩ := h
      obtain ⟨r, e, hr⟩ := hn y h2
      have hy := hq y h2
      unfold visitFrom
      rw [e, ih y r (by omega) hy hr]
      rw [filter_split (a := x + 1) (b := y) (by omega) (by omega) (fun z hz1 hz2 => h3 z (by omega) hz2)]
      have e2 : N - y = (N - (y + 1)) + 1 := by omega
      rw [e2, List.range'_succ, List.filter_cons, h2]
      rfl

section
variable {st : St} {L : Live}

/-- A live object. -/
def isLive (L : Live) (x : Nat) : Bool := (L x).isSome

theorem RInv.live_iff {g : G} (h : RInv st L g) (x : Nat) : usedAt g x = none ↔ isLive L x = false := by
  unfold isLive
  rcases h.lrel x with ⟨h1, h2⟩ | ⟨n, w, h1, h2, _⟩
  · simp [h1, h2]
  · simp [h1, h2]

theorem RInv.nextP {g : G} (h : RInv st L g) {x : Nat} {r : Option Nat} (hr : NextIs g x r) : NextP (isLive L) x r := by
  cases r with
  | none => intro y hy; exact (h.live_iff y).1 (hr y hy)
  | some y =>
    obtain ⟨h1, h2, h3⟩ := hr
    refine ⟨h1, ?_, fun z hz1 hz2 => (h.live_iff z).1 (h3 z hz1 hz2)⟩
    by_contra hc
    exact h2 ((h.live_iff y).2 (by simpa using hc))

theorem live_lt (h : Reach st L) {x : Nat} (hx : isLive L x = true) : x < st.segSize := by
  unfold isLive at hx
  obtain ⟨n, e⟩ := Option.isSome_iff_exists.1 hx
  obtain ⟨_, _, s, hs, h1, h2, h3, h4, h5, h6⟩ := C08_inside h e
  unfold room at h2
  obtain ⟨g, hg⟩ := reach_inv h
  have := hg.inv.geo.subs_al s hs
  omega

theorem nextRaw_res (h : Reach st L) {x : Nat} (hx : isLive L x = true) : ∃ r, nextRaw st x = some r ∧ NextP (isLive L) x r := by
  obtain ⟨g, hg⟩ := reach_inv h
  have hlt := live_lt h hx
  obtain ⟨n, e⟩ := Option.isSome_iff_exists.1 hx
  obtain ⟨w, hb, _, hm, hw⟩ := hg.live e
  obtain ⟨r, hr, hn⟩ := walk_res hg.toGood hg.ends (reach_pw h).1 (st.segSize + 1) x false (by omega) (.inr ⟨_, hb, by simp⟩)
  refine ⟨r, ?_, hg.nextP hn⟩
  unfold nextRaw
  rw [if_neg, hr]
  rcases hm with hm | hm <;> rw [hm] <;> simp [isFree] <;> omega

theorem firstRaw_res (h : Reach st L) : ∃ s r, s < st.segSize ∧ firstRaw st = some r ∧ NextP (isLive L) s r ∧ ∀ y, y ≤ s → isLive L y = false := by
  obtain ⟨g, hg⟩ := reach_inv h
  obtain ⟨hp, hne⟩ := reach_pw h
  cases hs : st.subs with
  | nil => exact absurd hs hne
  | cons s l =>
    have hms : s ∈ st.subs := by rw [hs]; simp
    have al := hg.inv.geo.subs_al s hms
    have ch := hg.inv.chunk s hms
    have sg := hg.inv.segAl
    obtain ⟨r, hr, hn⟩ := walk_res hg.toGood hg.ends hp (st.segSize + 1) s.aoff false (by omega) (.inl ⟨rfl, s, hms, rfl⟩)
    refine ⟨s.aoff, r, by omega, ?_, hg.nextP hn, ?_⟩
    · unfold firstRaw nextRaw
      rw [hs]
      simp only
      rw [if_neg, hr]
      rw [(hg.inv.cont.marker s hms).1]; decide
    · intro y hy
      rw [← hg.live_iff]
      by_contra hu
      obtain ⟨t, ht, h1, h2⟩ := used_in_sub hg.inv hu
      have pw := hg.inv.geo.subs_pw
      rw [hs] at ht pw
      rcases List.mem_cons.1 ht with rfl | ht
      · unfold Sub.lo at h1; omega
      · have := (List.pairwise_cons.1 pw).1 t ht
        unfold Sub.lo at h1; omega

theorem nextDataF_res (h : Reach st L) : ∀ (k x : Nat), st.segSize < x + k → isLive L x = true →
    ∃ r, nextDataF st k x = some r ∧ NextP (fun y => isLive L y && !notData st y) x r := by
  intro k
  induction k with
  | zero => intro x hk hx; have := live_lt h hx; omega
  | succ k ih =>
    intro x hk hx
    obtain ⟨r, e, hr⟩ := nextRaw_res h hx
    unfold nextDataF
    rw [e]
    cases r with
    | none => exact ⟨none, rfl, fun y hy => by simp [hr y hy]⟩
    | some y =>
      simp only
      obtain ⟨h1, h2, h3⟩ := hr
      by_cases hd : notData st y = true
      · rw [if_pos hd]
        obtain ⟨r, e, hr⟩ := ih y (by omega) h2
        refine ⟨r, e, ?_⟩
        cases r with
        | none =>
          intro z hz
          rcases Nat.lt_trichotomy z y with h4 | h4 | h4
          · simp [h3 z hz h4]
          · subst h4; simp [hd]
          · exact hr z h4
        | some v =>
          obtain ⟨r1, r2, r3⟩ := hr
          refine ⟨by omega, r2, ?_⟩
          intro z hz1 hz2
          rcases Nat.lt_trichotomy z y with h4 | h4 | h4
          · simp [h3 z hz1 h4]
          · subst h4; simp [hd]
          · exact r3 z h4 hz2
      · rw [if_neg hd]
        refine ⟨some y, rfl, h1, by simp [h2, hd], fun z hz1 hz2 => by simp [h3 z hz1 hz2]⟩

/-! ## C15 -/

/-- Iterating over all records with the raw functions ends, and visits exactly the live objects of the record area, each once, in
the order of their offsets. -/
theorem C15_raw (h : Reach st L) : visitFrom (nextRaw st) st.segSize (firstRaw st) = some (liveFrom st L (fun _ => true) 0) := by
  obtain ⟨s, r, hs, e, hr, h0⟩ := firstRaw_res h
  rw [e, visit_gen (N := st.segSize) (q := isLive L) (fun y hy => live_lt h hy) (fun x hx => nextRaw_res h hx) _ s r (by omega) hs hr]
  congr 1
  unfold liveFrom
  have : (fun x => (L x).isSome && true) = isLive L := by funext x; simp [isLive]
  rw [this]
  exact (filter_split (by omega) (by omega) (fun y _ h2 => h0 y (by omega))).symm

/-- Iterating over the data records ends, and visits exactly the live objects whose not-data bit is clear, each once, in the order
of their offsets. -/
theorem C15_data (h : Reach st L) :
    visitFrom (nextData st) st.segSize (firstData st) = some (liveFrom st L (fun x => !notData st x) 0) := by
  have hN : ∀ y, (isLive L y && !notData st y) = true → y < st.segSize := fun y hy => live_lt h (by simp at hy; exact hy.1)
  have hn : ∀ x, isLive L x = true → ∃ r, nextData st x = some r ∧ NextP (fun y => isLive L y && !notData st y) x r :=
    fun x hx => nextDataF_res h (st.segSize + 1) x (by omega) hx
  have hlf : ∀ s, s < st.segSize → (∀ y, y ≤ s → isLive L y = false) → liveFrom st L (fun x => !notData st x) 0 =
      (List.range' (s + 1) (st.segSize - (s + 1))).filter (fun y => isLive L y && !notData st y) := by
    intro s hs h0
    exact filter_split (q := fun y => isLive L y && !notData st y) (by omega) (by omega) (fun y _ h2 => by simp [h0 y (by omega)])
  obtain ⟨s, r, hs, e, hr, h0⟩ := firstRaw_res h
  have : ∃ r', firstData st = some r' ∧ NextP (fun y => isLive L y && !notData st y) s r' := by
    unfold firstData
    rw [e]
    cases r with
    | none => exact ⟨none, rfl, fun y hy => by simp [hr y hy]⟩
    | some y =>
      simp only
      obtain ⟨h1, h2, h3⟩ := hr
      by_cases hd : notData st y = true
      · rw [if_pos hd]
        obtain ⟨r, e, hr⟩ := hn y h2
        refine ⟨r, e, ?_⟩
        cases r with
        | none =>
          intro z hz
          rcases Nat.lt_trichotomy z y with h4 | h4 | h4
          · simp [h3 z hz h4]
          · subst h4; simp [hd]
          · exact hr z h4
        | some v =>
          obtain ⟨r1, r2, r3⟩ := hr
          refine ⟨by omega, r2, ?_⟩
          intro z hz1 hz2
          rcases Nat.lt_trichotomy z y with h4 | h4 | h4
          · simp [h3 z hz1 h4]
          · subst h4; simp [hd]
          · exact r3 z h4 hz2
      · rw [if_neg hd]
        refine ⟨some y, rfl, h1, by simp [h2, hd], fun z hz1 hz2 => by simp [h3 z hz1 hz2]⟩
  obtain ⟨r', e', hr'⟩ := this
  rw [e', visit_gen (N := st.segSize) hN (fun x hx => hn x (by simp at hx; exact hx.1)) _ s r' (by omega) hs hr', hlf s hs h0]

/-- The list of live objects has no repetitions and consists of the live objects. -/
theorem C15_exactly_once (h : Reach st L) (p : Nat → Bool) : (liveFrom st L p 0).Nodup ∧
    ∀ x, x ∈ liveFrom st L p 0 ↔ (∃ n, L x = some n) ∧ p x = true := by
  constructor
  · exact List.Nodup.sublist List.filter_sublist List.nodup_range'
  · intro x
    unfold liveFrom
    rw [List.mem_filter, List.mem_range'_1]
    constructor
    · rintro ⟨_, h2⟩
      rw [Bool.and_eq_true] at h2
      exact ⟨Option.isSome_iff_exists.1 h2.1, h2.2⟩
    · rintro ⟨hx, h2⟩
      have hx' : isLive L x = true := Option.isSome_iff_exists.2 hx
      have := live_lt h hx'
      exact ⟨by omega, by rw [Bool.and_eq_true]; exact ⟨hx', h2⟩⟩

/-- Steps: from any live object the next one is the live object with the next higher offset, NULL if there is none. -/
theorem C15_next (h : Reach st L) {x n : Nat} (hx : L x = some n) :
    (nextRaw st x = some none ∧ ∀ y, x < y → L y = none) ∨
    ∃ y m, nextRaw st x = some (some y) ∧ L y = some m ∧ x < y ∧ ∀ z, x < z → z < y → L z = none := by
  obtain ⟨r, e, hr⟩ := nextRaw_res h (x := x) (by unfold isLive; rw [hx]; rfl)
  have hno : ∀ z, isLive L z = false → L z = none := by intro z hz; unfold isLive at hz; simpa using hz
  cases r with
  | none => exact .inl ⟨e, fun y hy => hno y (hr y hy)⟩
  | some y =>
    obtain ⟨h1, h2, h3⟩ := hr
    obtain ⟨m, hm⟩ := Option.isSome_iff_exists.1 h2
    exact .inr ⟨y, m, e, hm, h1, fun z hz1 hz2 => hno z (h3 z hz1 hz2)⟩

end

/-- A state with two subareas, a free block, a victim and live objects in both subareas. -/
example : Reach (alloc x4 200).1 ((xL.del 1056).put 9248 200) ∧ firstRaw (alloc x4 200).1 = some (some 1856) ∧
    nextRaw (alloc x4 200).1 1856 = some (some 1888) ∧ nextRaw (alloc x4 200).1 1888 = some (some 9248) ∧
    nextRaw (alloc x4 200).1 9248 = some none :=
  ⟨x4_reach.alloc' 200 9248 (by decide) (by decide +kernel), by decide +kernel, by decide +kernel, by decide +kernel, by decide +kernel⟩

end WG.Varlen
