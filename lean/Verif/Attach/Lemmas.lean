import Verif.Attach.Spec
import Mathlib.Tactic.SplitIfs
/-! # Lemmas for C64 and C65 -/
namespace WG.Attach

/-! ## C64 -/

theorem toInt_id {v : Int} (h1 : -2^31 ≤ v) (h2 : v < 2^31) : toInt v = v := by
  unfold toInt
  rw [BitVec.toInt_ofInt]
  rw [Int.bmod_def]
  omega

theorem keyOf_range (name : Option Str) : 0 < keyOf name ∧ keyOf name < 2^31 - 1 := by
  unfold keyOf
  simp only
  generalize hk : rawKey name = key
  have hb : key < 2^31 := by
    rw [← hk]
    cases name with
    | none => decide
    | some s => exact BitVec.toInt_lt (x := BitVec.ofInt 32 (strtol s))
  split_ifs with h
  · omega
  · omega

theorem digits_take {ds rest : Str} (h : Digits ds) (hr : ∀ c r, rest = c :: r → isDigit c = false) : (ds ++ rest).takeWhile isDigit = ds := by
  have hd : ∀ c ∈ ds, isDigit c = true := by
    intro c hc; have := h.2 c hc; unfold isDigit; simp [this]
  rw [List.takeWhile_append_of_pos hd]
  cases rest with
  | nil => simp
  | cons c r => rw [List.takeWhile_cons, hr c r rfl]; simp

theorem strtol_digits {ds rest : Str} (h : Digits ds) (hr : ∀ c r, rest = c :: r → isDigit c = false) (hv : (value ds : Int) ≤ 2^63 - 1) :
    strtol (ds ++ rest) = value ds := by
  obtain ⟨c, r, rfl⟩ : ∃ c r, ds = c :: r := by
    cases ds with
    | nil => exact absurd rfl h.1
    | cons c r => exact ⟨c, r, rfl⟩
  have hc := h.2 c (by simp)
  have hs : isSpace c = false := by
    unfold isSpace
    have h1 : ¬ c = 32#8 := by rintro rfl; simp at hc
    have h2 : ¬ c.toNat ≤ 13 := by omega
    simp [h1, h2]
  unfold strtol
  simp only
  have e1 : (c :: r ++ rest).dropWhile isSpace = c :: r ++ rest := by
    rw [List.cons_append, List.dropWhile_cons, hs]; simp
  rw [e1]
  have e2 : sign (c :: r ++ rest) = (false, c :: r ++ rest) := by
    rw [List.cons_append]
    unfold sign
    dsimp only
    rw [if_neg (by rintro rfl; simp at hc), if_neg (by rintro rfl; simp at hc)]
  rw [e2]
  simp only [Bool.false_eq_true, if_false]
  rw [digits_take h hr, if_neg (by omega), if_neg (by omega)]

/-! ## C65: invariant -/

/-- Bounds on the arguments that lines 217, 218 provide. -/
def Args.Ok (a : Args) : Prop := 0 ≤ a.minsize ∧ a.minsize ≤ a.size

theorem args_ok (name : Option Str) (minsize size : Int) (create logging : Bool) : (args name minsize size create logging).Ok := by
  unfold Args.Ok args
  simp only
  split_ifs <;> omega

theorem sizes_ge {a : Args} (h : a.Ok) {z : Int} (hz : z ∈ sizes a) : a.minsize ≤ z := by
  obtain ⟨h1, h2⟩ := h
  unfold sizes at hz
  simp only at hz
  split_ifs at hz <;> simp at hz <;> omega

/-- Segment of a process, if it has got so far. -/
def Pc.seg : Pc → Option (Args × Nat)
  | .linked a id | .checked a id | .made a id _ | .initing a id _ | .inited a id | .final a id | .done a id => some (a, id)
  | _ => none

/-- What a process knows about the segments. -/
def PcOk (s : State) : Pc → Prop
  | .idle => True
  | .start a => a.Ok
  | .linked a id => a.Ok ∧ id < s.next
  | .inited a id => a.Ok ∧ id < s.next ∧ (s.segs id).mark = .ready ∧ (a.minsize = 0 ∨ a.minsize ≤ (s.segs id).size) ∧ a.create = true
  | .checked a id | .final a id => a.Ok ∧ id < s.next ∧ (s.segs id).mark = .ready ∧ (a.minsize = 0 ∨ a.minsize ≤ (s.segs id).size)
  | .noLink a => a.Ok ∧ a.create = true
  | .made a id z => a.Ok ∧ id < s.next ∧ (s.segs id).mark = .raw ∧ z ∈ sizes a ∧ a.create = true
  | .initing a id z => a.Ok ∧ id < s.next ∧ (s.segs id).mark = .init ∧ (s.segs id).size = z ∧ (s.segs id).compat = true ∧ z ∈ sizes a ∧ a.create = true ∧ (s.segs id).key = a.key
  | .cleanup a => a.Ok ∧ a.create = true
  | .done a id => a.Ok ∧ id < s.next ∧ (s.segs id).mark = .ready ∧ (a.minsize = 0 ∨ a.minsize ≤ (s.segs id).size) ∧ (s.segs id).compat = true

/-- The process is initialising segment `id`. -/
def Makes (c : Pc) (id : Nat) : Prop := ∃ a z, c = .made a id z ∨ c = .initing a id z

structure Inv (s : State) : Prop where
  tbl : ∀ k id, s.tbl k = some id → id < s.next
  pc : ∀ p, PcOk s (s.procs p)
  own : ∀ p q id, Makes (s.procs p) id → Makes (s.procs q) id → p = q

theorem set_self {α β : Type} [DecidableEq α] (f : α → β) (x : α) (v : β) : set f x v x = v := by simp [set]
theorem set_ne {α β : Type} [DecidableEq α] {f : α → β} {x y : α} {v : β} (h : y ≠ x) : set f x v y = f y := by simp [set, h]

theorem at_self (s : State) (p : Nat) (c : Pc) : (s.at p c).procs p = c := set_self _ _ _
theorem at_ne {s : State} {p q : Nat} {c : Pc} (h : q ≠ p) : (s.at p c).procs q = s.procs q := set_ne h

theorem Makes.not_ready {s : State} {c : Pc} {id : Nat} (h : Makes c id) (ho : PcOk s c) : (s.segs id).mark ≠ .ready ∧ id < s.next := by
  obtain ⟨a, z, rfl | rfl⟩ := h
  · obtain ⟨_, h1, h2, _⟩ := ho; exact ⟨by rw [h2]; decide, h1⟩
  · obtain ⟨_, h1, h2, _⟩ := ho; exact ⟨by rw [h2]; decide, h1⟩

/-- Steps that only move one process. -/
theorem Inv.move {s : State} (h : Inv s) {p : Nat} {c : Pc} (hc : PcOk s c) (hm : ∀ id, Makes c id → Makes (s.procs p) id) : Inv (s.at p c) := by
  refine ⟨h.tbl, ?_, ?_⟩
  · intro q
    by_cases e : q = p
    · subst e; rw [at_self]; exact hc
    · rw [at_ne e]; exact h.pc q
  · have key : ∀ q id, Makes ((s.at p c).procs q) id → Makes (s.procs q) id := by
      intro q id hq
      by_cases e : q = p
      · subst e; rw [at_self] at hq; exact hm id hq
      · rwa [at_ne e] at hq
    intro q r id hq hr
    exact h.own q r id (key q id hq) (key r id hr)

theorem not_makes_idle {id : Nat} {P : Prop} (h : Makes .idle id) : P := by obtain ⟨a, z, h | h⟩ := h <;> cases h

/-- Other processes do not care about a change of a segment that they do not use, or that keeps what they know. -/
theorem PcOk.congr {s s' : State} {c : Pc} (h : PcOk s c) (hn : s.next ≤ s'.next)
    (hs : ∀ id, id < s.next → (∃ x, c.seg = some (x, id)) →
      ((s'.segs id).mark = (s.segs id).mark ∧ (s'.segs id).size = (s.segs id).size ∧ (s'.segs id).compat = (s.segs id).compat ∧
        ((s.segs id).mark ≠ .ready → (s'.segs id).key = (s.segs id).key)) ∨
      (¬ Makes c id ∧ (s.segs id).mark ≠ .ready)) : PcOk s' c := by
  cases c with
  | idle => trivial
  | start a => exact h
  | linked a id => exact ⟨h.1, Nat.lt_of_lt_of_le h.2 hn⟩
  | noLink a => exact h
  | cleanup a => exact h
  | checked a id =>
    obtain ⟨h1, h2, h3, h4⟩ := h
    rcases hs id h2 ⟨a, rfl⟩ with ⟨e1, e2, e3, e4⟩ | ⟨_, e⟩
    · exact ⟨h1, by omega, e1 ▸ h3, e2 ▸ h4⟩
    · exact absurd h3 e
  | inited a id =>
    obtain ⟨h1, h2, h3, h4, h5⟩ := h
    rcases hs id h2 ⟨a, rfl⟩ with ⟨e1, e2, e3, e4⟩ | ⟨_, e⟩
    · exact ⟨h1, by omega, e1 ▸ h3, e2 ▸ h4, h5⟩
    · exact absurd h3 e
  | final a id =>
    obtain ⟨h1, h2, h3, h4⟩ := h
    rcases hs id h2 ⟨a, rfl⟩ with ⟨e1, e2, e3, e4⟩ | ⟨_, e⟩
    · exact ⟨h1, by omega, e1 ▸ h3, e2 ▸ h4⟩
    · exact absurd h3 e
  | done a id =>
    obtain ⟨h1, h2, h3, h4, h5⟩ := h
    rcases hs id h2 ⟨a, rfl⟩ with ⟨e1, e2, e3, e4⟩ | ⟨_, e⟩
    · exact ⟨h1, by omega, e1 ▸ h3, e2 ▸ h4, e3 ▸ h5⟩
    · exact absurd h3 e
  | made a id z =>
    obtain ⟨h1, h2, h3, h4, h5⟩ := h
    rcases hs id h2 ⟨a, rfl⟩ with ⟨e1, e2, e3, e4⟩ | ⟨e, _⟩
    · exact ⟨h1, by omega, e1 ▸ h3, h4, h5⟩
    · exact absurd ⟨a, z, .inl rfl⟩ e
  | initing a id z =>
    obtain ⟨h1, h2, h3, h4, h5, h6, h7, h8⟩ := h
    rcases hs id h2 ⟨a, rfl⟩ with ⟨e1, e2, e3, e4⟩ | ⟨e, _⟩
    · exact ⟨h1, by omega, e1 ▸ h3, e2 ▸ h4, e3 ▸ h5, h6, h7, (e4 (by rw [h3]; decide)).trans h8⟩
    · exact absurd ⟨a, z, .inr rfl⟩ e

theorem acceptable_iff {a : Args} {g : Seg} (h : acceptable a g = true) :
    g.mark = .ready ∧ (a.minsize = 0 ∨ a.minsize ≤ g.size) ∧ (a.logging = true → g.logging = true) := by
  unfold acceptable at h
  simp only [Bool.and_eq_true, decide_eq_true_eq, Bool.or_eq_true, Bool.not_eq_true'] at h
  obtain ⟨⟨h1, h2⟩, h3⟩ := h
  refine ⟨h1, ?_, ?_⟩
  · rcases h2 with h2 | h2
    · exact .inl (by simpa using h2)
    · exact .inr (by simpa using h2)
  · intro hl
    rcases h3 with h3 | h3
    · rw [hl] at h3; cases h3
    · exact h3

/-- Steps of process `p` that change segment `id`, which nobody else is making. -/
theorem Inv.change {s : State} (h : Inv s) {p id : Nat} {c : Pc} {g : Seg} (hid : id < s.next)
    (hg : (g.mark = (s.segs id).mark ∧ g.size = (s.segs id).size ∧ g.compat = (s.segs id).compat ∧
      ((s.segs id).mark ≠ .ready → g.key = (s.segs id).key)) ∨ Makes (s.procs p) id)
    (hc : PcOk { s.at p c with segs := set s.segs id g } c) (hm : ∀ i, Makes c i → Makes (s.procs p) i) :
    Inv { s.at p c with segs := set s.segs id g } := by
  refine ⟨h.tbl, ?_, (h.move (p := p) (c := .idle) trivial (fun _ h => not_makes_idle h)).own |> fun _ => ?_⟩
  · intro q
    by_cases e : q = p
    · subst e
      have : ({ s.at q c with segs := set s.segs id g } : State).procs q = c := at_self _ _ _
      rw [this]; exact hc
    · have : ({ s.at p c with segs := set s.segs id g } : State).procs q = s.procs q := at_ne e
      rw [this]
      refine (h.pc q).congr (Nat.le_refl _) ?_
      intro i hi ⟨x, hx⟩
      by_cases ei : i = id
      · subst ei
        rcases hg with hg | hg
        · left; show (set s.segs i g i).mark = _ ∧ (set s.segs i g i).size = _ ∧ (set s.segs i g i).compat = _ ∧ (_ → (set s.segs i g i).key = _)
          rw [set_self]; exact hg
        · right
          exact ⟨fun hq => e (h.own q p i hq hg), (hg.not_ready (h.pc p)).1⟩
      · left
        show (set s.segs id g i).mark = _ ∧ (set s.segs id g i).size = _ ∧ (set s.segs id g i).compat = _ ∧ (_ → (set s.segs id g i).key = _)
        rw [set_ne ei]; exact ⟨rfl, rfl, rfl, fun _ => rfl⟩
  · have key : ∀ q i, Makes ((s.at p c).procs q) i → Makes (s.procs q) i := by
      intro q i hq
      by_cases e : q = p
      · subst e; rw [at_self] at hq; exact hm i hq
      · rwa [at_ne e] at hq
    intro q r i hq hr
    exact h.own q r i (key q i hq) (key r i hr)

/-- A new segment. -/
theorem Inv.newSeg {s : State} (h : Inv s) {p : Nat} {c : Pc} {k : Int}
    (hc : PcOk { s.at p c with tbl := set s.tbl k (some s.next), segs := set s.segs s.next Seg.new, next := s.next + 1 } c)
    (hm : ∀ i, Makes c i → i = s.next) :
    Inv { s.at p c with tbl := set s.tbl k (some s.next), segs := set s.segs s.next Seg.new, next := s.next + 1 } := by
  have old : ∀ q i, Makes (s.procs q) i → i < s.next := fun q i hq => (hq.not_ready (h.pc q)).2
  refine ⟨?_, ?_, ?_⟩
  · intro k' id hk
    have hk : set s.tbl k (some s.next) k' = some id := hk
    show id < s.next + 1
    by_cases e : k' = k
    · subst e; rw [set_self] at hk; injection hk with hk; omega
    · rw [set_ne e] at hk; have := h.tbl k' id hk; omega
  · intro q
    by_cases e : q = p
    · subst e
      have : ({ s.at q c with tbl := set s.tbl k (some s.next), segs := set s.segs s.next Seg.new, next := s.next + 1 } : State).procs q = c := at_self _ _ _
      rw [this]; exact hc
    · have : ({ s.at p c with tbl := set s.tbl k (some s.next), segs := set s.segs s.next Seg.new, next := s.next + 1 } : State).procs q = s.procs q := at_ne e
      rw [this]
      refine (h.pc q).congr (Nat.le_succ _) ?_
      intro i hi _
      left
      show (set s.segs s.next Seg.new i).mark = _ ∧ (set s.segs s.next Seg.new i).size = _ ∧ (set s.segs s.next Seg.new i).compat = _ ∧ (_ → (set s.segs s.next Seg.new i).key = _)
      rw [set_ne (by omega)]; exact ⟨rfl, rfl, rfl, fun _ => rfl⟩
  · have key : ∀ q i, Makes ((s.at p c).procs q) i → (q = p ∧ i = s.next) ∨ (Makes (s.procs q) i ∧ i < s.next) := by
      intro q i hq
      by_cases e : q = p
      · subst e; rw [at_self] at hq; exact .inl ⟨rfl, hm i hq⟩
      · rw [at_ne e] at hq; exact .inr ⟨hq, old q i hq⟩
    intro q r i hq hr
    rcases key q i hq with ⟨e1, e2⟩ | ⟨e1, e2⟩ <;> rcases key r i hr with ⟨e3, e4⟩ | ⟨e3, e4⟩
    · rw [e1, e3]
    · omega
    · omega
    · exact h.own q r i e1 e3

theorem Inv.unkey {s : State} (h : Inv s) {k : Int} : Inv { s with tbl := set s.tbl k none } := by
  refine ⟨?_, ?_, h.own⟩
  · intro k' id hk
    have hk : set s.tbl k none k' = some id := hk
    by_cases e : k' = k
    · subst e; rw [set_self] at hk; cases hk
    · rw [set_ne e] at hk; exact h.tbl k' id hk
  · intro q
    exact (h.pc q).congr (Nat.le_refl _) (fun i _ _ => .inl ⟨rfl, rfl, rfl, fun _ => rfl⟩)

theorem Inv.step {s s' : State} {e : Ev} (h : Inv s) (hs : Step s e s') : Inv s' := by
  have nm : ∀ {c : Pc} {p : Nat}, (∀ a id z, c ≠ .made a id z ∧ c ≠ .initing a id z) → ∀ i, Makes c i → Makes (s.procs p) i := by
    intro c p hc i ⟨a, z, hm⟩
    rcases hm with hm | hm
    · exact absurd hm (hc a i z).1
    · exact absurd hm (hc a i z).2
  cases hs with
  | call name minsize size create logging hp => exact h.move (args_ok ..) (nm (by simp))
  | link hp ht =>
    rename_i p a id
    have := h.pc p; rw [hp] at this
    exact h.move ⟨this, h.tbl _ _ ht⟩ (nm (by simp))
  | linkFail hp =>
    rename_i p a
    have := h.pc p; rw [hp] at this
    by_cases hc : a.create = true
    · rw [if_pos hc]; exact h.move ⟨this, hc⟩ (nm (by simp))
    · rw [if_neg hc]; exact h.move trivial (nm (by simp))
  | linkDenied hp ht => exact h.move trivial (nm (by simp))
  | check hp =>
    rename_i p a id
    have hpc := h.pc p; rw [hp] at hpc
    by_cases hc : acceptable a (s.segs id) = true
    · rw [if_pos hc]
      have := acceptable_iff hc
      exact h.move ⟨hpc.1, hpc.2, this.1, this.2.1⟩ (nm (by simp))
    · rw [if_neg hc]; exact h.move trivial (nm (by simp))
  | stat hp =>
    rename_i p a id
    have hpc := h.pc p; rw [hp] at hpc
    by_cases hc : statable s (s.segs id) = true
    · rw [if_pos hc]; exact h.move hpc (nm (by simp))
    · rw [if_neg hc]; exact h.move trivial (nm (by simp))
  | statFail hp => exact h.move trivial (nm (by simp))
  | create hp ht hz =>
    rename_i p a size
    have hpc := h.pc p; rw [hp] at hpc
    refine h.newSeg ⟨hpc.1, Nat.lt_succ_self _, ?_, hz, hpc.2⟩ ?_
    · show (set s.segs s.next Seg.new s.next).mark = _
      rw [set_self]; rfl
    · rintro i ⟨a', z, hm | hm⟩
      · injection hm with _ hm; exact hm.symm
      · cases hm
  | createLost hp ht => exact h.newSeg trivial (fun i hm => not_makes_idle hm)
  | createFail hp => exact h.move trivial (nm (by simp))
  | initBegin hp =>
    rename_i p a id size
    have hpc := h.pc p; rw [hp] at hpc
    obtain ⟨h1, h2, h3, h4, h5⟩ := hpc
    refine h.change h2 (.inr (by rw [hp]; exact ⟨a, size, .inl rfl⟩)) ?_ ?_
    · refine ⟨h1, h2, ?_, ?_, ?_, h4, h5, congrArg Seg.key (set_self s.segs id _)⟩
      · exact congrArg Seg.mark (set_self s.segs id _)
      · exact congrArg Seg.size (set_self s.segs id _)
      · exact congrArg Seg.compat (set_self s.segs id _)
    · rintro i ⟨a', z, hm | hm⟩
      · cases hm
      · injection hm with _ hm _; subst hm; rw [hp]; exact ⟨a, size, .inl rfl⟩
  | initEnd hp =>
    rename_i p a id size
    have hpc := h.pc p; rw [hp] at hpc
    obtain ⟨h1, h2, h3, h4, h5, h6, h7, h8⟩ := hpc
    refine h.change h2 (.inr (by rw [hp]; exact ⟨a, size, .inr rfl⟩)) ⟨h1, h2, ?_, ?_, h7⟩ (nm (by simp))
    · exact congrArg Seg.mark (set_self s.segs id _)
    · right
      show a.minsize ≤ (set s.segs id _ id).size
      rw [set_self]
      show a.minsize ≤ (s.segs id).size
      rw [h4]; exact sizes_ge h1 h6
  | initFail hp =>
    rename_i p a id size d
    have hpc := h.pc p; rw [hp] at hpc
    obtain ⟨h1, h2, h3, h4, h5, h6, h7, h8⟩ := hpc
    exact h.change h2 (.inl ⟨rfl, rfl, rfl, fun _ => rfl⟩) ⟨h1, h7⟩ (nm (by simp))
  | log hp =>
    rename_i p a id
    have hpc := h.pc p; rw [hp] at hpc
    obtain ⟨h1, h2, h3, h4, h5⟩ := hpc
    refine h.change h2 (.inl ⟨rfl, rfl, rfl, fun _ => rfl⟩) ⟨h1, h2, ?_, ?_⟩ (nm (by simp))
    · show (set s.segs id _ id).mark = _
      rw [set_self]; exact h3
    · show _ ∨ a.minsize ≤ (set s.segs id _ id).size
      rw [set_self]; exact h4
  | logFail hp hl =>
    rename_i p a id
    have hpc := h.pc p; rw [hp] at hpc
    exact h.move ⟨hpc.1, hpc.2.2.2.2⟩ (nm (by simp))
  | cleanup hp =>
    rename_i p a
    exact (h.move (p := p) (c := .idle) trivial (nm (by simp))).unkey
  | cleanupFail hp => exact h.move trivial (nm (by simp))
  | finish hp =>
    rename_i p a id
    have hpc := h.pc p; rw [hp] at hpc
    by_cases hc : (s.segs id).mark = .ready ∧ (s.segs id).compat = true
    · rw [if_pos hc]; exact h.move ⟨hpc.1, hpc.2.1, hpc.2.2.1, hpc.2.2.2, hc.2⟩ (nm (by simp))
    · rw [if_neg hc]; exact h.move trivial (nm (by simp))
  | delete hp => exact h.unkey
  | detach hp => exact h.move trivial (nm (by simp))
  | use hp =>
    rename_i p a id key logging data
    have hpc := h.pc p; rw [hp] at hpc
    obtain ⟨h1, h2, h3, h4, h5⟩ := hpc
    have := h.change (p := p) (c := .done a id) (g := { s.segs id with key := key, logging := logging, data := data }) h2 (.inl ⟨rfl, rfl, rfl, fun hn => absurd h3 hn⟩)
      ⟨h1, h2, by show (set s.segs id _ id).mark = _; rw [set_self]; exact h3, by show _ ∨ a.minsize ≤ (set s.segs id _ id).size; rw [set_self]; exact h4,
        by show (set s.segs id _ id).compat = _; rw [set_self]; exact h5⟩ (nm (by simp))
    have e : s.at p (.done a id) = s := by
      unfold State.at
      have : set s.procs p (.done a id) = s.procs := by
        funext q; by_cases e : q = p
        · subst e; rw [set_self, hp]
        · rw [set_ne e]
      rw [this]
    rw [e] at this
    exact this
  | crash => exact h.move trivial (nm (by simp))

theorem reach_inv {s : State} (h : Reach s) : Inv s := by
  induction h with
  | start hp ht =>
    refine ⟨ht, ?_, ?_⟩
    · intro p; rw [hp p]; trivial
    · intro p q id hm; rw [hp p] at hm; exact not_makes_idle hm
  | step _ hs ih => exact ih.step hs

end WG.Attach
