import Verif.Records.Chain
import Mathlib.Tactic.Tauto
/-! # The backlink chains -/
namespace WG.Recs

def cnext (h : Heap) (x : Word) : Option Word := (h.cells x).map (·.cdr)
def carOf (h : Heap) (x : Word) : Word := ((h.cells x).map (·.car)).getD 0#64

/-- Every record's backlink chain ends, chains share no cells, and parent `p` occurs `N p c` times in the chain of `c`. -/
def BackOK (h : Heap) (N : Word → Word → Nat) : Prop :=
  ∃ bl : Word → List Word,
    (∀ c r, h.recs c = some r → Chain (cnext h) r.back (bl c)) ∧
    (∀ c c' r r' x, h.recs c = some r → h.recs c' = some r' → x ∈ bl c → x ∈ bl c' → c = c') ∧
    (∀ c r, h.recs c = some r → ∀ p, ((bl c).map (carOf h)).count p = N p c)

/-- Everything but records and cells. -/
def SameStr (h h' : Heap) : Prop :=
  h'.lstrs = h.lstrs ∧ h'.sstrs = h.sstrs ∧ h'.dbls = h.dbls ∧ h'.ints = h.ints ∧ h'.hash = h.hash ∧ h'.hlen = h.hlen

theorem upd_self {α} (f : Word → Option α) (k : Word) (v : Option α) : upd f k v k = v := by simp [upd]
theorem upd_ne {α} (f : Word → Option α) {k x : Word} (v : Option α) (hx : x ≠ k) : upd f k v x = f x := by simp [upd, hx]
theorem upd_same {α} (f : Word → Option α) {k : Word} {v : Option α} (hv : f k = v) : upd f k v = f := by
  funext x; by_cases hx : x = k
  · rw [hx, upd_self, hv]
  · rw [upd_ne _ _ hx]

theorem unlink_walk (h : Heap) (c p : Word) : ∀ (pre : List Word) (x n0 : Word) (post : List Word) (n : Nat) (loc : Option Word) (cur : Word),
    (∀ y ∈ pre, carOf h y ≠ p) → h.cells x = some ⟨p, n0⟩ → Chain (cnext h) cur (pre ++ x :: post) → pre.length < n →
    unlinkBack h c p n loc cur = some (some
      { h.setLink c (pre.getLast?.or loc) n0 with cells := upd (h.setLink c (pre.getLast?.or loc) n0).cells x none }) := by
  intro pre
  induction pre with
  | nil =>
    intro x n0 post n loc cur _ hx hc hn
    obtain ⟨k, rfl⟩ : ∃ k, n = k + 1 := ⟨n - 1, by simp at hn; omega⟩
    obtain ⟨rfl, h0, _⟩ := hc
    rw [unlinkBack, if_neg h0, hx]
    simp
  | cons a pre ih =>
    intro x n0 post n loc cur hp hx hc hn
    obtain ⟨k, rfl⟩ : ∃ k, n = k + 1 := ⟨n - 1, by simp at hn; omega⟩
    obtain ⟨rfl, h0, m, hm, hc2⟩ := hc
    have ha := hp cur (by simp)
    cases hcell : h.cells cur with
    | none => simp [cnext, hcell] at hm
    | some ce =>
      simp only [cnext, hcell, Option.map_some, Option.some.injEq] at hm
      simp only [carOf, hcell, Option.map_some, Option.getD_some] at ha
      rw [unlinkBack, if_neg h0, hcell]
      simp only [ha, if_false]
      rw [hm, ih x n0 post k (some cur) m (fun y hy => hp y (by simp [hy])) hx hc2 (by simp at hn; omega)]
      have : (pre.getLast?.or (some cur)) = ((cur :: pre).getLast?.or loc) := by
        cases pre <;> simp [List.getLast?_cons]
      rw [this]

theorem unlink_none (h : Heap) (c p : Word) : ∀ (l : List Word) (n : Nat) (loc : Option Word) (cur : Word),
    (∀ y ∈ l, carOf h y ≠ p) → Chain (cnext h) cur l → l.length < n → unlinkBack h c p n loc cur = some none := by
  intro l
  induction l with
  | nil =>
    intro n loc cur _ hc hn
    obtain ⟨k, rfl⟩ : ∃ k, n = k + 1 := ⟨n - 1, by simp at hn; omega⟩
    have : cur = 0#64 := hc
    rw [unlinkBack, if_pos this]
  | cons a pre ih =>
    intro n loc cur hp hc hn
    obtain ⟨k, rfl⟩ : ∃ k, n = k + 1 := ⟨n - 1, by simp at hn; omega⟩
    obtain ⟨rfl, h0, m, hm, hc2⟩ := hc
    have ha := hp cur (by simp)
    cases hcell : h.cells cur with
    | none => simp [cnext, hcell] at hm
    | some ce =>
      simp only [cnext, hcell, Option.map_some, Option.some.injEq] at hm
      simp only [carOf, hcell, Option.map_some, Option.getD_some] at ha
      rw [unlinkBack, if_neg h0, hcell]
      simp only [ha, if_false]
      rw [hm, ih k (some cur) m (fun y hy => hp y (by simp [hy])) hc2 (by simp at hn; omega)]

/-- Split a list at the first element with a property. -/
theorem split_first {α} (P : α → Prop) [DecidablePred P] : ∀ l : List α, (∃ x ∈ l, P x) →
    ∃ pre x post, l = pre ++ x :: post ∧ P x ∧ ∀ y ∈ pre, ¬ P y := by
  intro l
  induction l with
  | nil => rintro ⟨x, hx, _⟩; simp at hx
  | cons a l ih =>
    intro he
    by_cases ha : P a
    · exact ⟨[], a, l, rfl, ha, by simp⟩
    · obtain ⟨x, hx, hP⟩ := he
      have : ∃ x ∈ l, P x := by
        rcases List.mem_cons.1 hx with rfl | hx
        · exact absurd hP ha
        · exact ⟨x, hx, hP⟩
      obtain ⟨pre, y, post, rfl, h1, h2⟩ := ih this
      refine ⟨a :: pre, y, post, rfl, h1, ?_⟩
      intro z hz
      rcases List.mem_cons.1 hz with rfl | hz
      · exact ha
      · exact h2 z hz

/-- Changing `N` at one pair. -/
def updN (N : Word → Word → Nat) (p c : Word) (f : Nat → Nat) : Word → Word → Nat :=
  fun p' c' => if p' = p ∧ c' = c then f (N p c) else N p' c'

/-- What the removal of a backlink gives. -/
structure Removed (h h' : Heap) (c p : Word) (r : Rec) : Prop where
  str : SameStr h h'
  recs : ∃ b', h'.recs = upd h.recs c (some { r with back := b' }) ∧ (b' = r.back ∨ carOf h r.back = p)
  cells : ∀ x, h.cells x = none → h'.cells x = none

theorem removeBacklink_ok {h : Heap} {N} (hB : BackOK h N) {c p : Word} {r : Rec} (hr : h.recs c = some r) (hN : 0 < N p c) :
    ∃ h', removeBacklink h c p = some (some h') ∧ Removed h h' c p r ∧ BackOK h' (updN N p c (· - 1)) := by
  obtain ⟨bl, hb1, hb2, hb3⟩ := hB
  have hch := hb1 c r hr
  have hcnt := hb3 c r hr p
  have hmem : ∃ x ∈ bl c, carOf h x = p := by
    have : p ∈ (bl c).map (carOf h) := List.count_pos_iff.1 (by omega)
    obtain ⟨x, hx, he⟩ := List.mem_map.1 this
    exact ⟨x, hx, he⟩
  obtain ⟨pre, x, post, hl, hx, hpre⟩ := split_first (fun y => carOf h y = p) _ hmem
  rw [hl] at hch
  have hxm : x ∈ bl c := by rw [hl]; simp
  obtain ⟨n0, hn0⟩ := Seg.mem_some hch x (by simp)
  have hcx : h.cells x = some ⟨p, n0⟩ := by
    cases hcell : h.cells x with
    | none => simp [cnext, hcell] at hn0
    | some ce =>
      simp only [cnext, hcell, Option.map_some, Option.some.injEq] at hn0
      simp only [carOf, hcell, Option.map_some, Option.getD_some] at hx
      cases ce; simp_all
  have hlen := hch.length_lt
  have hw := unlink_walk h c p pre x n0 post walkFuel none r.back hpre hcx hch (by simp at hlen; omega)
  rw [removeBacklink, hr]
  refine ⟨_, hw, ?_⟩
  have hnd := hch.nodup
  have hothers : ∀ c' r', h.recs c' = some r' → c' ≠ c → ∀ z ∈ bl c', z ∉ bl c := fun c' r' hc' hne z hz hz' =>
    hne (hb2 _ _ _ _ z hc' hr hz hz')
  -- the two shapes of the new heap
  obtain ⟨h', hh', b', hrecs, hb', hstr, hcar, hnone, hchain, hoc⟩ : ∃ h', h' = ({ h.setLink c (pre.getLast?.or none) n0 with
      cells := upd (h.setLink c (pre.getLast?.or none) n0).cells x none } : Heap) ∧ ∃ b',
      h'.recs = upd h.recs c (some { r with back := b' }) ∧ (b' = r.back ∨ carOf h r.back = p) ∧ SameStr h h' ∧
      (∀ z, z ≠ x → carOf h' z = carOf h z) ∧ (∀ z, h.cells z = none → h'.cells z = none) ∧
      Chain (cnext h') b' (pre ++ post) ∧ (∀ z, z ∉ bl c → cnext h' z = cnext h z) := by
    rcases List.eq_nil_or_concat pre with rfl | ⟨pre', y, rfl⟩
    · refine ⟨_, rfl, n0, ?_⟩
      simp only [List.getLast?_nil, Option.or_none, Heap.setLink, hr, Option.map_some, List.nil_append]
      simp only [List.nil_append] at hch
      have hbx : r.back = x := hch.1
      refine ⟨by trivial, Or.inr (by rw [hbx]; exact hx), ⟨rfl, rfl, rfl, rfl, rfl, rfl⟩, ?_, ?_, ?_, ?_⟩
      · intro z hz; simp [carOf, upd_ne _ _ hz]
      · intro z hz
        by_cases hzx : z = x
        · rw [hzx] at hz; rw [hz] at hcx; cases hcx
        · simp [upd_ne _ _ hzx, hz]
      · refine hch.remove_head hn0 ?_
        intro z hz; simp [cnext, upd_ne _ _ hz]
      · intro z hz
        have : z ≠ x := by rintro rfl; exact hz hxm
        simp [cnext, upd_ne _ _ this]
    · rw [List.concat_eq_append] at *
      refine ⟨_, rfl, r.back, ?_⟩
      have hyx : y ≠ x := by
        simp only [List.nodup_append, List.mem_append, List.mem_singleton, List.mem_cons] at hnd
        exact hnd.2.2 y (by simp) x (by simp)
      have hym : y ∈ bl c := by rw [hl]; simp
      obtain ⟨cy, hcy⟩ : ∃ cy, h.cells y = some cy := by
        obtain ⟨n1, h1⟩ := Seg.mem_some hch y (by simp)
        cases hcell : h.cells y with
        | none => simp [cnext, hcell] at h1
        | some ce => exact ⟨ce, rfl⟩
      simp only [List.getLast?_append, List.getLast?_singleton, Option.some_or, Heap.setLink, hcy, Option.map_some]
      refine ⟨(upd_same _ hr).symm, Or.inl (by simp), ⟨rfl, rfl, rfl, rfl, rfl, rfl⟩, ?_, ?_, ?_, ?_⟩
      · intro z hz
        by_cases hzy : z = y
        · subst hzy; simp [carOf, upd_ne _ _ hz, upd_self, hcy]
        · simp [carOf, upd_ne _ _ hz, upd_ne _ _ hzy]
      · intro z hz
        have h1 : z ≠ x := by rintro rfl; rw [hz] at hcx; cases hcx
        have h2 : z ≠ y := by rintro rfl; rw [hz] at hcy; cases hcy
        simp [upd_ne _ _ h1, upd_ne _ _ h2, hz]
      · have e : pre' ++ [y] ++ x :: post = pre' ++ y :: x :: post := by simp
        have e' : pre' ++ [y] ++ post = pre' ++ y :: post := by simp
        rw [e] at hch
        rw [e']
        refine hch.remove_mid hn0 ?_ ?_
        · simp [cnext, upd_ne _ _ hyx, upd_self]
        · intro z h1 h2; simp [cnext, upd_ne _ _ h1, upd_ne _ _ h2]
      · intro z hz
        have h1 : z ≠ x := by rintro rfl; exact hz hxm
        have h2 : z ≠ y := by rintro rfl; exact hz hym
        simp [cnext, upd_ne _ _ h1, upd_ne _ _ h2]
  rw [← hh']
  refine ⟨⟨hstr, ⟨b', hrecs, hb'⟩, hnone⟩, fun c' => if c' = c then pre ++ post else bl c', ?_, ?_, ?_⟩
  · intro c' r' hr'
    by_cases hc : c' = c
    · subst hc
      rw [hrecs, upd_self] at hr'; cases hr'
      simpa using hchain
    · rw [hrecs, upd_ne _ _ hc] at hr'
      simp only [hc, if_false]
      exact Seg.congr (fun z hz => (hoc z (hothers c' r' hr' hc z hz)).symm) (hb1 c' r' hr')
  · intro c1 c2 r1 r2 z h1 h2 hz1 hz2
    have hsub : ∀ c', z ∈ (if c' = c then pre ++ post else bl c') → z ∈ bl c' := by
      intro c' hz
      by_cases hc : c' = c
      · subst hc; simp only [if_true, List.mem_append] at hz; rw [hl]; simp; tauto
      · simpa [hc] using hz
    have hlive : ∀ c' r', h'.recs c' = some r' → ∃ r'', h.recs c' = some r'' := by
      intro c' r' hr'
      by_cases hc : c' = c
      · subst hc; exact ⟨r, hr⟩
      · rw [hrecs, upd_ne _ _ hc] at hr'; exact ⟨_, hr'⟩
    obtain ⟨q1, e1⟩ := hlive _ _ h1
    obtain ⟨q2, e2⟩ := hlive _ _ h2
    exact hb2 _ _ _ _ z e1 e2 (hsub _ hz1) (hsub _ hz2)
  · intro c' r' hr' p'
    by_cases hc : c' = c
    · subst hc
      simp only [if_true]
      have hxn : x ∉ pre ++ post := by
        have := hnd
        rw [List.nodup_append] at this
        simp only [List.nodup_cons, List.mem_cons] at this
        intro hm
        rcases List.mem_append.1 hm with hm | hm
        · exact this.2.2 x hm x (Or.inl rfl) rfl
        · exact this.2.1.1 hm
      have hm : (pre ++ post).map (carOf h') = (pre ++ post).map (carOf h) :=
        List.map_congr_left (fun z hz => hcar z (by rintro rfl; exact hxn hz))
      rw [hm]
      have := hb3 c' r hr p'
      rw [hl] at this
      simp only [List.map_append, List.map_cons, List.count_append, List.count_cons, hx] at this
      simp only [List.map_append, List.count_append, updN]
      by_cases hp : p' = p
      · subst hp; simp at this ⊢; omega
      · have h2 : ¬ p = p' := fun e => hp e.symm
        simp [hp, h2] at this ⊢; omega
    · rw [hrecs, upd_ne _ _ hc] at hr'
      simp only [hc, if_false]
      have hm : (bl c').map (carOf h') = (bl c').map (carOf h) :=
        List.map_congr_left (fun z hz => hcar z (by rintro rfl; exact hothers c' r' hr' hc z hz hxm))
      rw [hm, hb3 c' r' hr' p']
      simp [updN, hc]

theorem append_walk (h : Heap) (c p q : Word) : ∀ (l : List Word) (n : Nat) (loc : Option Word) (cur : Word),
    Chain (cnext h) cur l → l.length < n →
    appendBack h c p q n loc cur = some (({ h with cells := upd h.cells q (some ⟨p, 0#64⟩) } : Heap).setLink c (l.getLast?.or loc) q) := by
  intro l
  induction l with
  | nil =>
    intro n loc cur hc hn
    obtain ⟨k, rfl⟩ : ∃ k, n = k + 1 := ⟨n - 1, by simp at hn; omega⟩
    have : cur = 0#64 := hc
    rw [appendBack, if_pos this]; simp
  | cons a l ih =>
    intro n loc cur hc hn
    obtain ⟨k, rfl⟩ : ∃ k, n = k + 1 := ⟨n - 1, by simp at hn; omega⟩
    obtain ⟨rfl, h0, m, hm, hc2⟩ := hc
    cases hcell : h.cells cur with
    | none => simp [cnext, hcell] at hm
    | some ce =>
      simp only [cnext, hcell, Option.map_some, Option.some.injEq] at hm
      rw [appendBack, if_neg h0, hcell]
      simp only
      rw [hm, ih k (some cur) m hc2 (by simp at hn; omega)]
      have : (l.getLast?.or (some cur)) = ((cur :: l).getLast?.or loc) := by
        cases l <;> simp [List.getLast?_cons]
      rw [this]

/-- What the addition of a backlink gives. -/
structure Added (h h' : Heap) (c q : Word) (r : Rec) : Prop where
  str : SameStr h h'
  recs : ∃ b', h'.recs = upd h.recs c (some { r with back := b' }) ∧ (b' = r.back ∨ r.back = 0#64)
  cells : ∀ x, x ≠ q → h.cells x = none → h'.cells x = none

theorem addBacklink_ok {h : Heap} {N} (hB : BackOK h N) {c p q : Word} {r : Rec} (hr : h.recs c = some r) (hq : h.cells q = none)
    (hq0 : q ≠ 0#64) : ∃ h', addBacklink h c p (some q) = some h' ∧ Added h h' c q r ∧ BackOK h' (updN N p c (· + 1)) := by
  obtain ⟨bl, hb1, hb2, hb3⟩ := hB
  have hch := hb1 c r hr
  have hw := append_walk h c p q (bl c) walkFuel none r.back hch hch.length_lt
  have hadd : addBacklink h c p (some q) = appendBack h c p q walkFuel none r.back := by simp [addBacklink, hr]
  rw [hadd]
  refine ⟨_, hw, ?_⟩
  have hnd := hch.nodup
  have hqn : ∀ c' r', h.recs c' = some r' → q ∉ bl c' := by
    intro c' r' hr' hm
    obtain ⟨n, hn⟩ := Seg.mem_some (hb1 c' r' hr') q hm
    simp [cnext, hq] at hn
  have hothers : ∀ c' r', h.recs c' = some r' → c' ≠ c → ∀ z ∈ bl c', z ∉ bl c := fun c' r' hc' hne z hz hz' =>
    hne (hb2 _ _ _ _ z hc' hr hz hz')
  obtain ⟨h', hh', b', hrecs, hb', hstr, hcar, hcarq, hnone, hchain, hoc⟩ : ∃ h', h' =
      (({ h with cells := upd h.cells q (some ⟨p, 0#64⟩) } : Heap).setLink c ((bl c).getLast?.or none) q) ∧ ∃ b',
      h'.recs = upd h.recs c (some { r with back := b' }) ∧ (b' = r.back ∨ r.back = 0#64) ∧ SameStr h h' ∧
      (∀ z, z ≠ q → carOf h' z = carOf h z) ∧ carOf h' q = p ∧ (∀ z, z ≠ q → h.cells z = none → h'.cells z = none) ∧
      Chain (cnext h') b' (bl c ++ [q]) ∧ (∀ z, z ≠ q → z ∉ bl c → cnext h' z = cnext h z) := by
    rcases List.eq_nil_or_concat (bl c) with hnil | ⟨pre', y, hl⟩
    · refine ⟨_, rfl, q, ?_⟩
      rw [hnil] at hch ⊢
      simp only [List.getLast?_nil, Option.or_none, Heap.setLink, hr, Option.map_some, List.nil_append]
      refine ⟨by trivial, Or.inr hch, ⟨rfl, rfl, rfl, rfl, rfl, rfl⟩, ?_, ?_, ?_, ?_, ?_⟩
      · intro z hz; simp [carOf, upd_ne _ _ hz]
      · simp [carOf, upd_self]
      · intro z hz hc; simp [upd_ne _ _ hz, hc]
      · exact ⟨rfl, hq0, 0#64, by simp [cnext, upd_self], rfl⟩
      · intro z hz _; simp [cnext, upd_ne _ _ hz]
    · rw [List.concat_eq_append] at hl
      refine ⟨_, rfl, r.back, ?_⟩
      have hym : y ∈ bl c := by rw [hl]; simp
      have hyq : y ≠ q := by rintro rfl; exact hqn c r hr hym
      obtain ⟨cy, hcy⟩ : ∃ cy, h.cells y = some cy := by
        obtain ⟨n1, h1⟩ := Seg.mem_some hch y hym
        cases hcell : h.cells y with
        | none => simp [cnext, hcell] at h1
        | some ce => exact ⟨ce, rfl⟩
      have hqm := hqn c r hr
      rw [hl] at hch hqm
      rw [hl]
      simp only [List.getLast?_append, List.getLast?_singleton, Option.some_or, Heap.setLink, upd_ne _ _ hyq, hcy, Option.map_some]
      refine ⟨(upd_same _ hr).symm, Or.inl (by simp), ⟨rfl, rfl, rfl, rfl, rfl, rfl⟩, ?_, ?_, ?_, ?_, ?_⟩
      · intro z hz
        by_cases hzy : z = y
        · subst hzy; simp [carOf, upd_self, hcy]
        · simp [carOf, upd_ne _ _ hz, upd_ne _ _ hzy]
      · simp [carOf, upd_ne _ _ (Ne.symm hyq), upd_self]
      · intro z hz hc
        have h2 : z ≠ y := by rintro rfl; rw [hc] at hcy; cases hcy
        simp [upd_ne _ _ h2, upd_ne _ _ hz, hc]
      · refine hch.append_last hqm hq0 ?_ ?_ ?_
        · simp [cnext, upd_self]
        · simp [cnext, upd_ne _ _ (Ne.symm hyq), upd_self]
        · intro z h1 h2; simp [cnext, upd_ne _ _ h1, upd_ne _ _ h2]
      · intro z hz hzm
        have h2 : z ≠ y := by rintro rfl; exact hzm (by simp)
        simp [cnext, upd_ne _ _ h2, upd_ne _ _ hz]
  rw [← hh']
  have hlive : ∀ c' r', h'.recs c' = some r' → ∃ r'', h.recs c' = some r'' := by
    intro c' r' hr'
    by_cases hc : c' = c
    · subst hc; exact ⟨r, hr⟩
    · rw [hrecs, upd_ne _ _ hc] at hr'; exact ⟨_, hr'⟩
  refine ⟨⟨hstr, ⟨b', hrecs, hb'⟩, hnone⟩, fun c' => if c' = c then bl c ++ [q] else bl c', ?_, ?_, ?_⟩
  · intro c' r' hr'
    by_cases hc : c' = c
    · subst hc
      rw [hrecs, upd_self] at hr'; cases hr'
      simpa using hchain
    · rw [hrecs, upd_ne _ _ hc] at hr'
      simp only [hc, if_false]
      refine Seg.congr (fun z hz => (hoc z ?_ (hothers c' r' hr' hc z hz)).symm) (hb1 c' r' hr')
      rintro rfl; exact hqn _ _ hr' hz
  · intro c1 c2 r1 r2 z h1 h2 hz1 hz2
    obtain ⟨q1, e1⟩ := hlive _ _ h1
    obtain ⟨q2, e2⟩ := hlive _ _ h2
    by_cases hzq : z = q
    · subst hzq
      have : ∀ c' r', h.recs c' = some r' → z ∈ (if c' = c then bl c ++ [z] else bl c') → c' = c := by
        intro c' r' hr' hz
        by_cases hc : c' = c
        · exact hc
        · simp only [hc, if_false] at hz; exact absurd hz (hqn _ _ hr')
      rw [this _ _ e1 hz1, this _ _ e2 hz2]
    · have hsub : ∀ c', z ∈ (if c' = c then bl c ++ [q] else bl c') → z ∈ bl c' := by
        intro c' hz
        by_cases hc : c' = c
        · subst hc; simp only [if_true, List.mem_append, List.mem_singleton] at hz; tauto
        · simpa [hc] using hz
      exact hb2 _ _ _ _ z e1 e2 (hsub _ hz1) (hsub _ hz2)
  · intro c' r' hr' p'
    by_cases hc : c' = c
    · subst hc
      simp only [if_true]
      have hm : (bl c').map (carOf h') = (bl c').map (carOf h) :=
        List.map_congr_left (fun z hz => hcar z (by rintro rfl; exact hqn _ _ hr hz))
      rw [List.map_append, hm, List.count_append, hb3 c' r hr p']
      simp only [List.map_cons, List.map_nil, hcarq, List.count_singleton, updN]
      by_cases hp : p' = p
      · subst hp; simp
      · have h2 : ¬ p = p' := fun e => hp e.symm
        simp [hp, h2]
    · rw [hrecs, upd_ne _ _ hc] at hr'
      simp only [hc, if_false]
      have hm : (bl c').map (carOf h') = (bl c').map (carOf h) :=
        List.map_congr_left (fun z hz => hcar z (by rintro rfl; exact hqn _ _ hr' hz))
      rw [hm, hb3 c' r' hr' p']
      simp [updN, hc]

end WG.Recs
