import Verif.Atomic.Model
import Mathlib.Tactic.NormNum
import Mathlib.Tactic.ByContra
/-!
# Atomic field updates: properties
-/
namespace WG.Atomic

/-! ## Specification -/

/-- The value `v` is an integer stored in the field itself, and decodes to `x`. -/
def HoldsInt (v : Word) (x : Int) : Prop := ∀ m : Mem, (decodeInt m v).map BitVec.toInt = some x

/-- The calls executed one after the other, without overlap, all of them successful: the field goes from the first to the second value. -/
inductive Runs : Word → List Op → Word → Prop
  | nil (v) : Runs v [] v
  | add (v v' d x l w) : HoldsInt v x → HoldsInt v' (x + d.toInt) → Runs v' l w → Runs v (.add d :: l) w
  | set (v data l w) : Runs data l w → Runs v (.set data :: l) w
  | upd (old data l w) : Runs data l w → Runs old (.upd data old :: l) w

/-- The finished calls that returned 0. -/
def State.done (s : State) : List Op := (s.hist.filter (fun e => e.2 = 0)).map Prod.fst

/-- If `v` is an integer it is below 2^28 in absolute value. -/
def Small (v : Word) : Prop := ∀ x, HoldsInt v x → -2 ^ 28 ≤ x ∧ x < 2 ^ 28

/-- The amount of an increment. -/
def Op.amount : Op → Int
  | .add d => d.toInt
  | _ => 0

/-! ## Words -/

theorem holdsInt_iff (v : Word) (x : Int) : HoldsInt v x ↔ (isSmallint v = true ∧ (decodeSmallint v).toInt = x) := by
  unfold HoldsInt decodeInt
  constructor
  · intro h
    by_cases hs : isSmallint v = true
    · have := h (fun _ => 0)
      simp [hs] at this
      exact ⟨hs, this⟩
    · exfalso
      by_cases hf : isFullint v = true
      · have h0 := h (fun _ => 0)
        have h1 := h (fun _ => 1)
        simp [hs, hf, dbfetch] at h0 h1
        omega
      · have := h (fun _ => 0)
        simp [hs, hf] at this
  · rintro ⟨hs, hx⟩ m
    simp [hs, hx]

theorem fits32_iff (s : BitVec 32) : fits32 s = true ↔ -2 ^ 28 ≤ s.toInt ∧ s.toInt < 2 ^ 28 := by
  unfold fits32
  rw [beq_iff_eq, ← BitVec.toInt_inj, BitVec.toInt_sshiftRight, BitVec.toInt_shiftLeft, Nat.shiftLeft_eq, Int.shiftRight_eq_div_pow,
    Int.bmod_def, BitVec.toInt_eq_toNat_cond]
  have := s.isLt
  push_cast
  split <;> split <;> omega

/-- An `int` that fits keeps its value when encoded. -/
theorem encode32_small (s : BitVec 32) (h : fits32 s = true) : isSmallint (encode32 s) = true ∧ (decodeSmallint (encode32 s)).toInt = s.toInt := by
  have h8 : ((s <<< 3) ||| 3#32).toNat = (s.toNat * 8) % 2 ^ 32 + 3 := by
    have : (s <<< 3) ||| 3#32 = (s <<< 3) + 3#32 := by
      rw [BitVec.add_eq_or_of_and_eq_zero]
      apply BitVec.eq_of_getLsbD_eq
      intro i hi
      simp only [BitVec.getLsbD_and, BitVec.getLsbD_shiftLeft, BitVec.getLsbD_zero]
      have h3 : ∀ j : Fin 32, ¬ j.1 < 3 → (3#32).getLsbD j.1 = false := by decide
      by_cases h : i < 3
      · simp [h]
      · rw [h3 ⟨i, hi⟩ h]; simp
    rw [this, BitVec.toNat_add, BitVec.toNat_shiftLeft, Nat.shiftLeft_eq]
    simp
    omega
  have hi : (encode32 s).toInt = s.toInt * 8 + 3 := by
    unfold encode32
    rw [BitVec.toInt_signExtend_of_le (by omega), BitVec.toInt_eq_toNat_cond, h8]
    have h' := (fits32_iff s).1 h
    rw [BitVec.toInt_eq_toNat_cond] at h' ⊢
    have := s.isLt
    split at h' <;> split <;> omega
  constructor
  · unfold isSmallint
    rw [beq_iff_eq, ← BitVec.toNat_inj, BitVec.toNat_and]
    have h7 : (7#64).toNat = 2 ^ 3 - 1 := rfl
    rw [h7, Nat.and_two_pow_sub_one_eq_mod]
    rw [BitVec.toInt_eq_toNat_cond (encode32 s)] at hi
    have := (encode32 s).isLt
    simp
    split at hi <;> omega
  · unfold decodeSmallint
    rw [BitVec.toInt_sshiftRight, hi, Int.shiftRight_eq_div_pow]
    omega

theorem sum32_small (v : Word) (d : BitVec 32) (h1 : -2 ^ 28 ≤ (decodeSmallint v).toInt) (h2 : (decodeSmallint v).toInt < 2 ^ 28)
    (h : fits32 (sum32 v d) = true) : (sum32 v d).toInt = (decodeSmallint v).toInt + d.toInt := by
  rw [fits32_iff] at h
  unfold sum32 at *
  have e : (decodeSmallint v + d.signExtend 64).toInt = (decodeSmallint v).toInt + d.toInt := by
    rw [BitVec.toInt_add, BitVec.toInt_signExtend_of_le (by omega), Int.bmod_def]
    have a1 := BitVec.toInt_lt (x := d)
    have a2 := BitVec.le_toInt (x := d)
    split <;> omega
  have e2 : ((decodeSmallint v + d.signExtend 64).setWidth 32).toInt = ((decodeSmallint v).toInt + d.toInt).bmod (2 ^ 32) := by
    rw [← e, BitVec.toInt_setWidth, BitVec.toInt_eq_toNat_bmod, Int.bmod_bmod_of_dvd]
    exact ⟨2 ^ 32, by norm_num⟩
  rw [e2] at h ⊢
  have a1 := BitVec.toInt_lt (x := d)
  have a2 := BitVec.le_toInt (x := d)
  rw [Int.bmod_def] at h ⊢
  split at h <;> omega

/-! ## Invariant -/

/-- What a process has established. -/
def PcOk (c : Cfg) (A : Op → Prop) : Pc → Prop
  | .idle => True
  | .load op _ => A op ∧ recordCheck c = true ∧ ∀ data old, op ≠ .upd data old
  | .cas op _ old nxt => A op ∧ updCheck c nxt old = 0 ∧ match op with
    | .add d => isSmallint old = true ∧ fits32 (sum32 old d) = true ∧ nxt = encode32 (sum32 old d)
    | .set data => nxt = data
    | .upd data o => nxt = data ∧ old = o

theorem runs_append {v w : Word} {l : List Op} {x : Op} {z : Word} (h : Runs v l w) (h' : Runs w [x] z) : Runs v (l ++ [x]) z := by
  induction h with
  | nil v => exact h'
  | add v v' d y l w h1 h2 _ ih => exact .add _ _ _ _ _ _ h1 h2 (ih h')
  | set v data l w _ ih => exact .set _ _ _ _ (ih h')
  | upd old data l w _ ih => exact .upd _ _ _ _ (ih h')

/-- The calls may only store integers below 2^28. -/
def SmallOps (A : Op → Prop) : Prop := (∀ data, A (.set data) → Small data) ∧ ∀ data old, A (.upd data old) → Small data

/-- A successful call satisfies all the preconditions. -/
def Allowed (c : Cfg) : Op → Prop
  | .add _ => ∃ nxt old, updCheck c nxt old = 0
  | .set data => ∃ old, updCheck c data old = 0
  | .upd data old => updCheck c data old = 0

structure Inv (c : Cfg) (A : Op → Prop) (n : Nat) (v0 : Word) (s : State) : Prop where
  len : s.pcs.length = n
  pcs : ∀ pc ∈ s.pcs, PcOk c A pc
  ops : ∀ e ∈ s.hist, A e.1
  allowed : ∀ e ∈ s.hist, e.2 = 0 → Allowed c e.1
  small : Small v0 → SmallOps A → Small s.v
  runs : Small v0 → SmallOps A → Runs v0 s.done s.v

theorem done_ret (s : State) (i : Nat) (v : Word) (op : Op) (code : Int) :
    (s.upd i v (.ret op code)).done = s.done ++ (if code = 0 then [op] else []) := by
  unfold State.done State.upd
  by_cases h : code = 0 <;> simp [h]

theorem done_go (s : State) (i : Nat) (v : Word) (pc : Pc) : (s.upd i v (.go pc)).done = s.done := rfl

/-- Steps that do not change the field. -/
theorem inv_quiet {c : Cfg} {A : Op → Prop} {n : Nat} {v0 : Word} {s : State} (h : Inv c A n v0 s) (i : Nat) (o : Out)
    (hgo : ∀ pc, o = .go pc → PcOk c A pc) (hret : ∀ op code, o = .ret op code → A op ∧ code ≠ 0) : Inv c A n v0 (s.upd i s.v o) := by
  cases o with
  | go pc =>
    refine ⟨by simpa [State.upd] using h.len, ?_, h.ops, h.allowed, h.small, fun a b => by rw [done_go]; exact h.runs a b⟩
    intro p hp
    rcases List.mem_or_eq_of_mem_set hp with h1 | h1
    · exact h.pcs p h1
    · rw [h1]; exact hgo pc rfl
  | ret op code =>
    obtain ⟨ha, hc⟩ := hret op code rfl
    refine ⟨by simpa [State.upd] using h.len, ?_, ?_, ?_, h.small, fun a b => by rw [done_ret]; simpa [hc, State.upd] using h.runs a b⟩
    · intro p hp
      rcases List.mem_or_eq_of_mem_set hp with h1 | h1
      · exact h.pcs p h1
      · rw [h1]; trivial
    · intro e he
      rcases List.mem_append.1 he with h1 | h1
      · exact h.ops e h1
      · rw [List.mem_singleton.1 h1]; exact ha
    · intro e he h0
      rcases List.mem_append.1 he with h1 | h1
      · exact h.allowed e h1 h0
      · rw [List.mem_singleton.1 h1] at h0; exact absurd h0 hc

theorem inv_step {c : Cfg} {A : Op → Prop} {n : Nat} {v0 : Word} {s s' : State} (h : Inv c A n v0 s) (hs : Step c A s s') :
    Inv c A n v0 s' := by
  cases hs with
  | call i op hi hA =>
    refine inv_quiet h i _ ?_ ?_
    · intro pc hpc
      cases op with
      | add d =>
        simp only [call] at hpc; split at hpc
        · cases hpc; exact ⟨hA, by assumption, by simp⟩
        · cases hpc
      | set d =>
        simp only [call] at hpc; split at hpc
        · cases hpc; exact ⟨hA, by assumption, by simp⟩
        · cases hpc
      | upd d o =>
        simp only [call] at hpc; split at hpc
        · cases hpc; exact ⟨hA, by assumption, rfl, rfl⟩
        · cases hpc
    · intro op' code hc
      cases op with
      | add d =>
        simp only [call] at hc; split at hc
        · cases hc
        · cases hc; exact ⟨hA, by decide⟩
      | set d =>
        simp only [call] at hc; split at hc
        · cases hc
        · cases hc; exact ⟨hA, by decide⟩
      | upd d o =>
        simp only [call] at hc; split at hc
        · cases hc
        · cases hc; exact ⟨hA, by assumption⟩
  | load i op k hi =>
    have hp := h.pcs _ (List.mem_of_getElem? hi)
    refine inv_quiet h i _ ?_ ?_
    · intro pc hpc
      cases op with
      | add d =>
        simp only [load] at hpc
        split at hpc
        · cases hpc
        · split at hpc
          · cases hpc
          · split at hpc
            · cases hpc
              exact ⟨hp.1, by assumption, by simp_all, by simp_all, rfl⟩
            · cases hpc
      | set d =>
        simp only [load] at hpc; split at hpc
        · cases hpc; exact ⟨hp.1, by assumption, rfl⟩
        · cases hpc
      | upd d o => simp [load] at hpc
    · intro op' code hc
      cases op with
      | add d =>
        simp only [load] at hc
        split at hc
        · cases hc; exact ⟨hp.1, by decide⟩
        · split at hc
          · cases hc; exact ⟨hp.1, by decide⟩
          · split at hc
            · cases hc
            · cases hc; exact ⟨hp.1, by assumption⟩
      | set d =>
        simp only [load] at hc; split at hc
        · cases hc
        · cases hc; exact ⟨hp.1, by assumption⟩
      | upd d o => exact absurd rfl (hp.2.2 d o)
  | casOk i op k nxt hi =>
    have hp := h.pcs _ (List.mem_of_getElem? hi)
    have key : Small v0 → SmallOps A → Small nxt ∧ Runs s.v [op] nxt := by
      intro h0 hA
      have hv := h.small h0 hA
      cases op with
      | add d =>
        obtain ⟨_, _, h1, h2, h3⟩ := hp
        have hv' := hv _ ((holdsInt_iff _ _).2 ⟨h1, rfl⟩)
        have e := sum32_small s.v d hv'.1 hv'.2 h2
        have e2 := encode32_small _ h2
        have hx : HoldsInt nxt ((decodeSmallint s.v).toInt + d.toInt) := by
          rw [h3, holdsInt_iff, ← e]; exact e2
        refine ⟨?_, .add _ _ _ _ _ _ ((holdsInt_iff _ _).2 ⟨h1, rfl⟩) hx (.nil _)⟩
        intro x hx'
        have hx2 := ((holdsInt_iff _ _).1 hx).2
        have hx3 := ((holdsInt_iff _ _).1 hx').2
        have := (fits32_iff _).1 h2
        rw [e] at this
        omega
      | set d =>
        obtain ⟨h1, _, h3⟩ := hp
        subst h3
        exact ⟨hA.1 _ h1, .set _ _ _ _ (.nil _)⟩
      | upd d o =>
        obtain ⟨h1, _, h3, h4⟩ := hp
        subst h3; subst h4
        exact ⟨hA.2 _ _ h1, .upd _ _ _ _ (.nil _)⟩
    refine ⟨by simpa [State.upd] using h.len, ?_, ?_, ?_, fun a b => (key a b).1, ?_⟩
    · intro p hp
      rcases List.mem_or_eq_of_mem_set hp with h1 | h1
      · exact h.pcs p h1
      · rw [h1]; trivial
    · intro e he
      rcases List.mem_append.1 he with h1 | h1
      · exact h.ops e h1
      · rw [List.mem_singleton.1 h1]; exact hp.1
    · intro e he h0
      rcases List.mem_append.1 he with h1 | h1
      · exact h.allowed e h1 h0
      · rw [List.mem_singleton.1 h1]
        cases op with
        | add d => exact ⟨_, _, hp.2.1⟩
        | set d => exact ⟨s.v, by have := hp.2.2; simp only at this; rw [← this]; exact hp.2.1⟩
        | upd d o =>
          obtain ⟨_, h2, h3, h4⟩ := hp
          simp only [Allowed]; rw [← h3, ← h4]; exact h2
    · intro a b
      rw [done_ret, if_pos rfl]
      exact runs_append (h.runs a b) (key a b).2
  | casFail i op k old nxt hi hne =>
    have hp := h.pcs _ (List.mem_of_getElem? hi)
    have hr : ∀ old nxt, updCheck c nxt old = 0 → recordCheck c = true := by
      intro old nxt hu
      unfold updCheck at hu
      by_contra hc
      rw [if_pos hc] at hu
      omega
    refine inv_quiet h i _ ?_ ?_
    · intro pc hpc
      cases op with
      | add d =>
        simp only [casFail] at hpc; split at hpc
        · cases hpc
        · cases hpc; exact ⟨hp.1, hr _ _ hp.2.1, by simp⟩
      | set d =>
        simp only [casFail] at hpc; split at hpc
        · cases hpc
        · cases hpc; exact ⟨hp.1, hr _ _ hp.2.1, by simp⟩
      | upd d o => simp [casFail] at hpc
    · intro op' code hc
      cases op with
      | add d =>
        simp only [casFail] at hc; split at hc
        · cases hc; exact ⟨hp.1, by decide⟩
        · cases hc
      | set d =>
        simp only [casFail] at hc; split at hc
        · cases hc; exact ⟨hp.1, by decide⟩
        · cases hc
      | upd d o => simp only [casFail] at hc; cases hc; exact ⟨hp.1, by decide⟩

theorem inv_reach {c : Cfg} {A : Op → Prop} {n : Nat} {v0 : Word} {s : State} (h : Reach c A n v0 s) : Inv c A n v0 s := by
  induction h with
  | init =>
    refine ⟨by simp, ?_, by simp, by simp, fun a _ => a, fun _ _ => .nil _⟩
    intro pc hpc
    rw [List.eq_of_mem_replicate hpc]; trivial
  | step _ hs ih => exact inv_step ih hs

/-! ## Properties -/

/-- C21: for every number of processes and every interleaving, the field always holds what the finished successful calls give when they
are executed one after the other in the order in which they finished; calls that returned an error have had no effect, and every
successful `wg_update_atomic_field` found the expected old value. Missing for the full property: integers in the field of 2^28 and above
(`C21_truncation_counterexample`). -/
theorem C21_no_lost_update_partial {c : Cfg} {A : Op → Prop} {n : Nat} {v0 : Word} {s : State} (h : Reach c A n v0 s)
    (hv : Small v0) (hset : ∀ data, A (.set data) → Small data) (hupd : ∀ data old, A (.upd data old) → Small data) :
    Runs v0 s.done s.v :=
  (inv_reach h).runs hv ⟨hset, hupd⟩

theorem runs_sum {v w : Word} {l : List Op} (h : Runs v l w) (hl : ∀ op ∈ l, ∃ d, op = .add d) (x : Int) (hx : HoldsInt v x) :
    HoldsInt w (x + (l.map Op.amount).sum) := by
  induction h generalizing x with
  | nil v => simpa using hx
  | add v v' d y l w h1 h2 _ ih =>
    have e1 := ((holdsInt_iff _ _).1 h1).2
    have e2 := ((holdsInt_iff _ _).1 hx).2
    have : x = y := by omega
    subst this
    have := ih (fun op ho => hl op (List.mem_cons_of_mem _ ho)) _ h2
    simpa [Op.amount, Int.add_assoc] using this
  | set v data l w _ _ => obtain ⟨d, hd⟩ := hl _ (List.mem_cons_self ..); cases hd
  | upd old data l w _ _ => obtain ⟨d, hd⟩ := hl _ (List.mem_cons_self ..); cases hd

/-- C21: concurrent `wg_add_int_atomic_field` calls end with the initial value plus the sum of the increments of the calls that returned
0. Missing: initial values of 2^28 and above (`C21_truncation_counterexample`). -/
theorem C21_sum_partial {c : Cfg} {n : Nat} {v0 : Word} {x0 : Int} {s : State} (h : Reach c (fun op => ∃ d, op = .add d) n v0 s)
    (hv : HoldsInt v0 x0) (h1 : -2 ^ 28 ≤ x0) (h2 : x0 < 2 ^ 28) : HoldsInt s.v (x0 + (s.done.map Op.amount).sum) := by
  have hsm : Small v0 := by
    intro x hx
    have e1 := ((holdsInt_iff _ _).1 hv).2
    have e2 := ((holdsInt_iff _ _).1 hx).2
    omega
  refine runs_sum (C21_no_lost_update_partial h hsm (by simp) (by simp)) ?_ x0 hv
  intro op ho
  simp only [State.done, List.mem_map, List.mem_filter] at ho
  obtain ⟨e, ⟨he, _⟩, rfl⟩ := ho
  exact (inv_reach h).ops e he

/-- A call that returned 0 was on an existing field without an index, not journalled, and with a value stored in the field itself (null,
small integer, char, date, ...: nothing allocated, no record). -/
theorem C21_refused {c : Cfg} {A : Op → Prop} {n : Nat} {v0 : Word} {s : State} (h : Reach c A n v0 s) {op : Op} (hop : (op, 0) ∈ s.hist) :
    0 ≤ c.fieldnr ∧ c.fieldnr < c.len ∧ (c.indexed = true → c.special = true ∨ 127 < c.fieldnr) ∧ c.logging = false ∧
      (∀ data, op = .set data → data = 0#64 ∨ data &&& 3#64 = 3#64) ∧
      (∀ data old, op = .upd data old → (data = 0#64 ∨ data &&& 3#64 = 3#64) ∧ (old = 0#64 ∨ old &&& 3#64 = 3#64)) := by
  have ha := (inv_reach h).allowed _ hop rfl
  have key : ∀ data old, updCheck c data old = 0 → recordCheck c = true ∧ isImmediate data = true ∧ isImmediate old = true ∧
      ¬ (¬ c.special ∧ c.fieldnr ≤ 127 ∧ c.indexed) ∧ c.logging = false := by
    intro data old hu
    unfold updCheck at hu
    split at hu; · omega
    split at hu; · omega
    split at hu; · omega
    split at hu; · omega
    split at hu; · omega
    simp_all
  have imm : ∀ w, isImmediate w = true → w = 0#64 ∨ w &&& 3#64 = 3#64 := by
    intro w hw
    unfold isImmediate isPtr isFullint at hw
    by_cases h0 : w = 0#64
    · exact .inl h0
    · right
      simp [h0] at hw
      exact hw.1
  have base : ∃ data old, updCheck c data old = 0 := by
    cases op with
    | add d => exact ha
    | set d => obtain ⟨o, ho⟩ := ha; exact ⟨_, _, ho⟩
    | upd d o => exact ⟨_, _, ha⟩
  obtain ⟨d, o, hdo⟩ := base
  obtain ⟨h1, _, _, h4, h5⟩ := key d o hdo
  have h1' : 0 ≤ c.fieldnr ∧ c.fieldnr < c.len := by
    unfold recordCheck at h1
    simp at h1
    omega
  refine ⟨h1'.1, h1'.2, ?_, h5, ?_, ?_⟩
  · intro hi
    by_cases hsp : c.special = true
    · exact .inl hsp
    · right
      by_contra hn
      exact h4 ⟨hsp, by omega, hi⟩
  · rintro data rfl
    obtain ⟨o, ho⟩ := ha
    exact imm _ (key _ _ ho).2.1
  · rintro data old rfl
    exact ⟨imm _ (key _ _ ha).2.1, imm _ (key _ _ ha).2.2.1⟩

/-- C14 for the atomic functions: with a field number out of range every call returns -2 and the field is never changed. -/
theorem C14_atomic_refused {c : Cfg} {A : Op → Prop} {n : Nat} {v0 : Word} {s : State} (h : Reach c A n v0 s)
    (hr : c.fieldnr < 0 ∨ c.len ≤ c.fieldnr) : s.v = v0 ∧ ∀ e ∈ s.hist, e.2 = -2 := by
  have hrc : recordCheck c = false := by
    unfold recordCheck
    rcases hr with h | h <;> simp [h]
  have key : s.v = v0 ∧ (∀ e ∈ s.hist, e.2 = -2) ∧ ∀ pc ∈ s.pcs, pc = .idle := by
    induction h with
    | init => exact ⟨rfl, by simp, fun pc hp => List.eq_of_mem_replicate hp⟩
    | step _ hs ih =>
      obtain ⟨h1, h2, h3⟩ := ih
      cases hs with
      | call i op hi hA =>
        have : call c op = .ret op (-2) := by
          cases op <;> simp [call, hrc, updCheck]
        rw [this]
        refine ⟨h1, ?_, ?_⟩
        · intro e he
          rcases List.mem_append.1 he with h | h
          · exact h2 e h
          · rw [List.mem_singleton.1 h]
        · intro p hp
          rcases List.mem_or_eq_of_mem_set hp with h | h
          · exact h3 p h
          · exact h
      | load i op k hi => exact absurd (h3 _ (List.mem_of_getElem? hi)) (by simp)
      | casOk i op k nxt hi => exact absurd (h3 _ (List.mem_of_getElem? hi)) (by simp)
      | casFail i op k old nxt hi hne => exact absurd (h3 _ (List.mem_of_getElem? hi)) (by simp)
  exact ⟨key.1, key.2.1⟩

def exCfg : Cfg := ⟨3, 1, false, false, false⟩

/-- A run of one call on its own. -/
theorem run_add (A : Op → Prop) (c : Cfg) (v : Word) (d : BitVec 32) (hA : A (.add d)) (h1 : recordCheck c = true) (h2 : isSmallint v = true)
    (h3 : fits32 (sum32 v d) = true) (h4 : updCheck c (encode32 (sum32 v d)) v = 0) :
    Reach c A 1 v ⟨encode32 (sum32 v d), [.idle], [(.add d, 0)]⟩ := by
  have r1 := Reach.step (.init (c := c) (A := A) (n := 1) (v0 := v)) (.call _ 0 (.add d) rfl hA)
  simp only [call, h1, State.upd, if_true] at r1
  have r2 := Reach.step r1 (.load _ 0 (.add d) 0 rfl)
  simp only [load, h2, h3, h4, State.upd, not_true, if_true, if_false] at r2
  exact Reach.step r2 (.casOk _ 0 (.add d) 0 _ rfl)

/-- The full property fails: the sum is computed in an `int`. A field holding 2^32 holds 1 after a successful increment by 1. -/
theorem C21_truncation_counterexample : ∃ s : State, Reach exCfg (fun op => ∃ d, op = .add d) 1 (encodeSmallint (2 ^ 32)) s ∧
    s.hist = [(.add 1#32, 0)] ∧ HoldsInt (encodeSmallint (2 ^ 32)) (2 ^ 32) ∧ HoldsInt s.v 1 :=
  ⟨_, run_add _ exCfg (encodeSmallint (2 ^ 32)) 1#32 ⟨_, rfl⟩ (by decide) (by decide) (by decide) (by decide), rfl,
    (holdsInt_iff _ _).2 (by decide), (holdsInt_iff _ _).2 (by decide)⟩

/-- Two processes: both read 5; the first stores 5+2, the second fails, retries and stores 7+3. -/
def exA : Op → Prop := fun op => ∃ d, op = .add d

theorem exRun : Reach exCfg exA 2 (encodeSmallint 5) ⟨encodeSmallint 10, [.idle, .idle], [(.add 2#32, 0), (.add 3#32, 0)]⟩ := by
  have r := Reach.step (.init (c := exCfg) (A := exA) (n := 2) (v0 := encodeSmallint 5)) (.call _ 0 (.add 2#32) rfl ⟨_, rfl⟩)
  have r := Reach.step r (.call _ 1 (.add 3#32) rfl ⟨_, rfl⟩)
  have r := Reach.step r (.load _ 0 (.add 2#32) 0 rfl)
  have r := Reach.step r (.load _ 1 (.add 3#32) 0 rfl)
  have r := Reach.step r (.casOk _ 0 (.add 2#32) 0 (encodeSmallint 7) (by decide))
  have r := Reach.step r (.casFail _ 1 (.add 3#32) 0 (encodeSmallint 5) (encodeSmallint 8) (by decide) (by decide))
  have r := Reach.step r (.load _ 1 (.add 3#32) 1 (by decide))
  exact Reach.step r (.casOk _ 1 (.add 3#32) 1 (encodeSmallint 10) (by decide))

example : HoldsInt (encodeSmallint 10) (5 + ([2, 3] : List Int).sum) :=
  C21_sum_partial (x0 := 5) exRun ((holdsInt_iff _ _).2 (by decide)) (by decide) (by decide)
example : Runs (encodeSmallint 5) [.add 2#32, .add 3#32] (encodeSmallint 10) :=
  C21_no_lost_update_partial exRun (by intro x hx; have := ((holdsInt_iff _ _).1 hx).2; rw [← this]; decide)
    (by rintro data ⟨d, hd⟩; cases hd) (by rintro data old ⟨d, hd⟩; cases hd)
example : (0 : Int) ≤ exCfg.fieldnr := (C21_refused exRun (op := .add 3#32) (by simp)).1
/-- A refused call on a field number out of range. -/
example : ∃ s : State, Reach { exCfg with fieldnr := -1 } exA 1 (encodeSmallint 5) s ∧ s.hist = [(.add 2#32, -2)] ∧ s.v = encodeSmallint 5 := by
  have r := Reach.step (.init (c := { exCfg with fieldnr := -1 }) (A := exA) (n := 1) (v0 := encodeSmallint 5)) (.call _ 0 (.add 2#32) rfl ⟨_, rfl⟩)
  exact ⟨_, r, rfl, (C14_atomic_refused r (.inl (by decide))).1⟩

end WG.Atomic
