import Verif.MPool.Model
import Mathlib.Tactic.ByContra
import Mathlib.Tactic.NormNum
/-!
# Memory pools: properties
-/
namespace WG.MPool

/-! ## Specification -/

/-- Two blocks `(address, size)` have no byte in common. -/
def Apart (x y : Nat × Nat) : Prop := x.1 + x.2 ≤ y.1 ∨ y.1 + y.2 ≤ x.1

/-- What `malloc(bytes)` may return while the blocks `used` are allocated: NULL, or the nonzero address of a block apart from them. Blocks of
1 GiB or more are refused. -/
def MallocOk (used : List (Nat × Nat)) (bytes : Int) : Option Nat → Prop
  | none => True
  | some a => 0 < a ∧ 0 ≤ bytes ∧ bytes < 2 ^ 30 ∧ ∀ b ∈ used, Apart (a, bytes.toNat) b

/-- The blocks obtained from `malloc` after a request, `malloc` having returned `r` if it was called. -/
def gotAfter (p : Pool) (bytes : Int) (r : Option Nat) (got : List (Nat × Nat)) : List (Nat × Nat) :=
  if extends? p bytes then (r.map (fun a => (a, (extendBytes p bytes).toNat) :: got)).getD got else got

/-- Histories: a pool was created at address `hdr`; `got` are the blocks obtained from `malloc`, `given` the blocks returned by
`wg_alloc_mpool`, newest first. Requests are at most 1 GiB - 4. -/
inductive Hist : Pool → Nat → List (Nat × Nat) → List (Nat × Nat) → Prop
  | create (a : Nat) (orig : Int) : orig < 2 ^ 30 → MallocOk [] (createBytes orig) (some a) →
      Hist (create a orig) a [(a, (createBytes orig).toNat)] []
  | alloc {p hdr got given} (bytes : Int) (r : Option Nat) : Hist p hdr got given → bytes ≤ 2 ^ 30 - 4 →
      MallocOk got (extendBytes p bytes) r →
      Hist (alloc p bytes r).1 hdr
        (gotAfter p bytes r got)
        (if (alloc p bytes r).2 = 0 then given else ((alloc p bytes r).2, bytes.toNat) :: given)

/-! ## Proofs -/

theorem align_mod (x : Nat) : align x % 4 = 0 := by unfold align alignment; split <;> omega
theorem align_ge (x : Nat) : x ≤ align x := by unfold align alignment; split <;> omega
theorem align_lt (x : Nat) : align x < x + 4 := by unfold align alignment; split <;> omega

theorem int32_id {x : Int} (h1 : -2 ^ 31 ≤ x) (h2 : x < 2 ^ 31) : int32 x = x := by
  unfold int32; rw [Int.bmod_def]; split <;> omega

theorem grow_ok (n : Nat) (b lim : Int) (hb : 0 < b) (hb2 : b < 2 ^ 30) (hl : lim ≤ 2 ^ 30) (hn : lim ≤ b * 2 ^ n) (h1 : 1 ≤ n) :
    lim ≤ grow n b lim ∧ 2 * b ≤ grow n b lim ∧ grow n b lim < 2 ^ 31 := by
  induction n generalizing b with
  | zero => omega
  | succ n ih =>
    have e : int32 (b * 2) = b * 2 := int32_id (by omega) (by omega)
    simp only [grow, e]
    split
    · omega
    · rename_i h
      have hlt : b * 2 < lim := by omega
      have hn1 : 1 ≤ n := by
        rcases Nat.eq_zero_or_pos n with h0 | h0
        · subst h0; simp at hn; omega
        · exact h0
      have e2 : b * 2 * 2 ^ n = b * 2 ^ (n + 1) := by rw [Int.pow_succ, Int.mul_assoc, Int.mul_comm 2]
      have := ih (b * 2) (by omega) (by omega) (by omega) hn1
      omega

/-- The block does not reach into the free part of the current subarea. -/
def Clear (p : Pool) (b : Nat × Nat) : Prop := b.1 + b.2 ≤ p.free ∨ p.cur.stop ≤ b.1

structure Inv (p : Pool) (hdr : Nat) (got given : List (Nat × Nat)) : Prop where
  hdr0 : 0 < hdr
  size : 0 < p.cur.size ∧ p.cur.size < 2 ^ 30
  free4 : p.free % 4 = 0
  freelo : p.cur.start ≤ p.free
  freepos : 0 < p.free
  cur : ∃ n, (p.cur.start, n) ∈ got ∧ p.cur.stop = p.cur.start + n
  freehdr : Clear p (hdr, hdrSize)
  given4 : ∀ b ∈ given, b.1 % 4 = 0
  inside : ∀ b ∈ given, ∃ g ∈ got, g.1 ≤ b.1 ∧ b.1 + b.2 ≤ g.1 + g.2
  newer : ∀ b ∈ given, Clear p b
  hdrIn : ∃ g ∈ got, g.1 ≤ hdr ∧ hdr + hdrSize ≤ g.1 + g.2
  hdrOut : ∀ b ∈ given, Apart (hdr, hdrSize) b
  pair : given.Pairwise Apart
  pos : ∀ b ∈ given, 0 < b.1 ∧ 0 < b.2

theorem createBytes_eq (orig : Int) (h : orig < 2 ^ 30) : 3444 ≤ createBytes orig ∧ createBytes orig < 2 ^ 31 := by
  unfold createBytes minFirst alignment hdrSize
  split
  · decide
  · rw [int32_id] <;> omega

theorem inv_create (a : Nat) (orig : Int) (h1 : orig < 2 ^ 30) (h2 : MallocOk [] (createBytes orig) (some a)) :
    Inv (create a orig) a [(a, (createBytes orig).toNat)] [] := by
  have hb := createBytes_eq orig h1
  obtain ⟨ha, _, hlt, _⟩ := h2
  have hsz : int32 (createBytes orig - hdrSize) = createBytes orig - hdrSize := int32_id (by unfold hdrSize; omega) (by unfold hdrSize; omega)
  have g1 := align_ge (a + hdrSize)
  refine {
    hdr0 := ha, size := ?_, free4 := align_mod _, freelo := ?_, freepos := ?_, cur := ⟨_, by simp [create], rfl⟩, freehdr := ?_,
    given4 := by simp, inside := by simp, newer := by simp, hdrIn := ?_, hdrOut := by simp, pair := .nil, pos := by simp }
  · simp only [create, hsz]; simp only [hdrSize]; omega
  · simp only [create]; omega
  · simp only [create]; omega
  · simp only [create, Clear]; omega
  · refine ⟨_, List.mem_singleton.2 rfl, ?_⟩
    simp only [hdrSize]; omega

/-- A block cut off at the free pointer. -/
theorem inv_bump {p : Pool} {hdr : Nat} {got given : List (Nat × Nat)} (h : Inv p hdr got given) (n : Nat) (hn : 0 < n)
    (hfit : p.free + n ≤ p.cur.stop) : Inv { p with free := align (p.free + n) } hdr got ((p.free, n) :: given) := by
  have g1 := align_ge (p.free + n)
  obtain ⟨k, hk, hst⟩ := h.cur
  have hfl := h.freelo
  have hfp := h.freepos
  have newer' : ∀ b : Nat × Nat, Clear p b → Clear { p with free := align (p.free + n) } b := by
    intro b hb; simp only [Clear] at *; omega
  have newer2 : ∀ b : Nat × Nat, Clear p b → Apart b (p.free, n) := by
    intro b hb; simp only [Apart, Clear] at *; omega
  refine {
    hdr0 := h.hdr0, size := h.size, free4 := align_mod _, freelo := ?_, freepos := ?_, cur := h.cur, freehdr := ?_,
    given4 := ?_, inside := ?_, newer := ?_, hdrIn := h.hdrIn, hdrOut := ?_, pair := ?_, pos := ?_ }
  · simp only []; omega
  · simp only []; omega
  · exact newer' _ h.freehdr
  · intro b hb
    rcases List.mem_cons.1 hb with rfl | hb
    · exact h.free4
    · exact h.given4 b hb
  · intro b hb
    rcases List.mem_cons.1 hb with rfl | hb
    · exact ⟨_, hk, hfl, by simp only []; omega⟩
    · exact h.inside b hb
  · intro b hb
    rcases List.mem_cons.1 hb with rfl | hb
    · simp only [Clear]; omega
    · exact newer' _ (h.newer b hb)
  · intro b hb
    rcases List.mem_cons.1 hb with rfl | hb
    · exact newer2 _ h.freehdr
    · exact h.hdrOut b hb
  · refine List.pairwise_cons.2 ⟨fun b hb => ?_, h.pair⟩
    have := newer2 _ (h.newer b hb)
    simp only [Apart] at *; omega
  · intro b hb
    rcases List.mem_cons.1 hb with rfl | hb
    · exact ⟨hfp, hn⟩
    · exact h.pos b hb

theorem apart_sub {a x b : Nat × Nat} (h : Apart a b) (h1 : b.1 ≤ x.1) (h2 : x.1 + x.2 ≤ b.1 + b.2) : Apart a x := by
  simp only [Apart] at *; omega

theorem extendBytes_ok {p : Pool} {bytes : Int} (hs : 0 < p.cur.size ∧ p.cur.size < 2 ^ 30) (h0 : 0 < bytes) (h1 : bytes ≤ 2 ^ 30 - 4) :
    bytes + 4 ≤ extendBytes p bytes ∧ extendBytes p bytes < 2 ^ 31 := by
  unfold extendBytes
  have e : int32 (bytes + alignment) = bytes + 4 := int32_id (by unfold alignment; omega) (by unfold alignment; omega)
  rw [e]
  have := grow_ok 100 p.cur.size (bytes + 4) hs.1 hs.2 (by omega) (by
    have : (2 : Int) ^ 30 ≤ p.cur.size * 2 ^ 100 := by omega
    omega) (by omega)
  omega

/-- A new subarea. -/
theorem inv_extend {p p' : Pool} {hdr : Nat} {got given : List (Nat × Nat)} (h : Inv p hdr got given) (bytes : Int) (h0 : 0 < bytes)
    (h1 : bytes ≤ 2 ^ 30 - 4) (a : Nat) (hm : MallocOk got (extendBytes p bytes) (some a)) (he : extend p bytes (some a) = some p') :
    Inv p' hdr ((a, (extendBytes p bytes).toNat) :: got) given ∧ p'.free + bytes.toNat ≤ p'.cur.stop := by
  have hx := extendBytes_ok h.size h0 h1
  obtain ⟨ha, _, hlt, hap⟩ := hm
  simp only [extend, Option.some.injEq] at he
  subst he
  have g1 := align_ge a
  have g2 := align_lt a
  have sub : ∀ b : Nat × Nat, (∃ g ∈ got, g.1 ≤ b.1 ∧ b.1 + b.2 ≤ g.1 + g.2) →
      b.1 + b.2 ≤ align a ∨ a + (extendBytes p bytes).toNat ≤ b.1 := by
    rintro b ⟨g, hg, i1, i2⟩
    have := apart_sub (hap g hg) i1 i2
    simp only [Apart] at *; omega
  refine ⟨{
    hdr0 := h.hdr0, size := ⟨by simp only []; omega, hlt⟩, free4 := align_mod _, freelo := g1, freepos := by simp only []; omega,
    cur := ⟨_, List.mem_cons_self .., rfl⟩, freehdr := ?_, given4 := h.given4, inside := ?_, newer := ?_, hdrIn := ?_, hdrOut := h.hdrOut,
    pair := h.pair, pos := h.pos }, ?_⟩
  · exact sub _ h.hdrIn
  · intro b hb
    obtain ⟨g, hg, i⟩ := h.inside b hb
    exact ⟨g, List.mem_cons_of_mem _ hg, i⟩
  · intro b hb; exact sub b (h.inside b hb)
  · obtain ⟨g, hg, i⟩ := h.hdrIn
    exact ⟨g, List.mem_cons_of_mem _ hg, i⟩
  · simp only []; omega

theorem hist_inv {p : Pool} {hdr : Nat} {got given : List (Nat × Nat)} (h : Hist p hdr got given) : Inv p hdr got given := by
  induction h with
  | create a orig h1 h2 => exact inv_create a orig h1 h2
  | @alloc p hdr got given bytes r _ hle hm ih =>
    by_cases h0 : bytes ≤ 0
    · have e1 : alloc p bytes r = (p, 0) := by simp [alloc, h0]
      have e2 : extends? p bytes = false := by simp [extends?, h0]
      rw [e1, gotAfter, e2]
      exact ih
    · by_cases hf : p.free + bytes.toNat > p.cur.stop
      · have e2 : extends? p bytes = true := by simp only [extends?, decide_eq_true_eq]; omega
        rw [gotAfter, e2]
        cases r with
        | none =>
          have e1 : alloc p bytes none = (p, 0) := by simp [alloc, h0, hf, extend]
          rw [e1]; exact ih
        | some a =>
          cases hex : extend p bytes (some a) with
          | none => simp [extend] at hex
          | some p' =>
            obtain ⟨i, hfit⟩ := inv_extend ih bytes (by omega) hle a hm hex
            have e1 : alloc p bytes (some a) = ({ p' with free := align (p'.free + bytes.toNat) }, p'.free) := by simp [alloc, h0, hf, hex]
            rw [e1]
            have : p'.free ≠ 0 := by have := i.freepos; omega
            simp only [this, if_false]
            exact inv_bump i _ (by omega) hfit
      · have e2 : extends? p bytes = false := by simp only [extends?, decide_eq_false_iff_not, not_and]; omega
        have e1 : alloc p bytes r = ({ p with free := align (p.free + bytes.toNat) }, p.free) := by simp [alloc, h0, hf]
        rw [e1, gotAfter, e2]
        have : p.free ≠ 0 := by have := ih.freepos; omega
        simp only [this, if_false]
        have := inv_bump ih bytes.toNat (by omega) (by omega)
        exact this

/-- C41: in every history, every block returned lies inside a block obtained from `malloc`, is 4-byte aligned, does not overlap the pool's
own header, and no two blocks returned overlap. Missing for the full property: requests above 1 GiB and `malloc`s that grant 1 GiB or more,
where the size computation overflows (`C41_overflow_counterexample`). -/
theorem C41_blocks_partial {p : Pool} {hdr : Nat} {got given : List (Nat × Nat)} (h : Hist p hdr got given) :
    (∀ b ∈ given, b.1 % 4 = 0 ∧ (∃ g ∈ got, g.1 ≤ b.1 ∧ b.1 + b.2 ≤ g.1 + g.2) ∧ Apart (hdr, 2416) b) ∧ given.Pairwise Apart :=
  ⟨fun b hb => ⟨(hist_inv h).given4 b hb, (hist_inv h).inside b hb, (hist_inv h).hdrOut b hb⟩, (hist_inv h).pair⟩

/-- C41: a positive request fails only if `malloc` does, and the size of the returned block is the size asked for. -/
theorem C41_served {p : Pool} {hdr : Nat} {got given : List (Nat × Nat)} (h : Hist p hdr got given) (bytes : Int) (r : Option Nat)
    (h0 : 0 < bytes) (h1 : bytes ≤ 2 ^ 30 - 4) (hm : MallocOk got (extendBytes p bytes) r) (hr : (alloc p bytes r).2 = 0) : r = none := by
  have i := hist_inv h
  unfold alloc at hr
  rw [if_neg (by omega)] at hr
  split at hr
  · cases r with
    | none => rfl
    | some a =>
      obtain ⟨ha, _⟩ := hm
      have := align_ge a
      simp only [extend] at hr
      omega
  · have := i.freepos
    simp only at hr
    omega

/-- A pool with three blocks, the third one in a new subarea. -/
theorem exHist : ∃ p, Hist p 1001 [(8002, 8224), (1001, 3444)] [(8004, 5000), (3432, 100), (3420, 10)] := by
  have h := Hist.create 1001 0 (by decide) ⟨by decide, by decide, by decide, by simp⟩
  have h2 := Hist.alloc 10 none h (by decide) trivial
  have e1 : create 1001 0 = ⟨3420, ⟨1028, 1001, 4445⟩, []⟩ := by decide
  have e : (createBytes 0).toNat = 3444 := by decide
  have e2 : alloc ⟨3420, ⟨1028, 1001, 4445⟩, []⟩ 10 none = (⟨3432, ⟨1028, 1001, 4445⟩, []⟩, 3420) := by decide
  have x2 : extends? ⟨3420, ⟨1028, 1001, 4445⟩, []⟩ 10 = false := by decide
  have t2 : (10 : Int).toNat = 10 := rfl
  rw [e, e1, gotAfter, e2, x2, t2, if_neg (by decide : ¬(3420 = 0)), if_neg (by decide : ¬(false = true))] at h2
  have h3 := Hist.alloc 100 none h2 (by decide) trivial
  have e3 : alloc ⟨3432, ⟨1028, 1001, 4445⟩, []⟩ 100 none = (⟨3532, ⟨1028, 1001, 4445⟩, []⟩, 3432) := by decide
  have x3 : extends? ⟨3432, ⟨1028, 1001, 4445⟩, []⟩ 100 = false := by decide
  have t3 : (100 : Int).toNat = 100 := rfl
  rw [gotAfter, e3, x3, t3, if_neg (by decide : ¬(3432 = 0)), if_neg (by decide : ¬(false = true))] at h3
  have eb : extendBytes ⟨3532, ⟨1028, 1001, 4445⟩, []⟩ 5000 = 8224 := by decide
  have h4 := Hist.alloc 5000 (some 8002) h3 (by decide) (by rw [eb]; exact ⟨by decide, by decide, by decide, by simp [Apart]⟩)
  have e4 : (alloc ⟨3532, ⟨1028, 1001, 4445⟩, []⟩ 5000 (some 8002)).2 = 8004 := by decide
  have x4 : extends? ⟨3532, ⟨1028, 1001, 4445⟩, []⟩ 5000 = true := by decide
  have t4 : (5000 : Int).toNat = 5000 := rfl
  have t5 : (8224 : Int).toNat = 8224 := rfl
  rw [gotAfter, e4, x4, eb, t4, t5, if_neg (by decide : ¬(8004 = 0)), if_pos rfl] at h4
  exact ⟨_, h4⟩

example : Apart (8004, 5000) (3432, 100) := by
  obtain ⟨p, h⟩ := exHist
  have := (C41_blocks_partial h).2
  rw [List.pairwise_cons] at this
  exact this.1 _ (by simp)

example : (alloc (create 1001 0) 5000 none).2 = 0 ∧ (none : Option Nat) = none :=
  ⟨by decide, C41_served (Hist.create 1001 0 (by decide) ⟨by decide, by decide, by decide, by simp⟩) 5000 none (by decide) (by decide) trivial (by decide)⟩

/-- The full property fails: a request of 2^31-1 bytes overflows in `minbytes+ALIGNMENT_BYTES`; the pool obtains 2056 bytes and returns a
block that it claims to have 2^31-1 bytes. -/
theorem C41_overflow_counterexample : (alloc (create 1000 0) (2 ^ 31 - 1) (some 8000)).2 = 8000 ∧ extendBytes (create 1000 0) (2 ^ 31 - 1) = 2056 := by
  decide

/-! ## Memory -/

theorem storeList_out (m : Bytes) (a : Nat) (l : List (BitVec 8)) (x : Nat) (h : x < a ∨ a + l.length ≤ x) : storeList m a l x = m x := by
  induction l generalizing m a with
  | nil => rfl
  | cons b t ih =>
    simp only [List.length_cons] at h
    simp only [storeList]
    rw [ih _ _ (by omega), if_neg (by omega)]

theorem storeList_in (m : Bytes) (a : Nat) (l : List (BitVec 8)) (i : Nat) (h : i < l.length) : storeList m a l (a + i) = l[i] := by
  induction l generalizing m a i with
  | nil => simp at h
  | cons b t ih =>
    simp only [storeList]
    cases i with
    | zero => rw [storeList_out _ _ _ _ (by omega)]; simp
    | succ i =>
      have := ih (fun x => if x = a then b else m x) (a + 1) i (by simpa using h)
      rw [show a + (i + 1) = a + 1 + i by omega, this]
      rfl

/-- The bytes `l` are stored at `a`. -/
def At (m : Bytes) (a : Nat) (l : List (BitVec 8)) : Prop := ∀ i (h : i < l.length), m (a + i) = l[i]

theorem digits8 (n : Nat) (h : n < 2 ^ 64) : n / 2 ^ 0 % 256 * 1 + n / 2 ^ 8 % 256 * 256 + n / 2 ^ 16 % 256 * 65536 + n / 2 ^ 24 % 256 * 16777216 +
    n / 2 ^ 32 % 256 * 4294967296 + n / 2 ^ 40 % 256 * 1099511627776 + n / 2 ^ 48 % 256 * 281474976710656 +
    n / 2 ^ 56 % 256 * 72057594037927936 = n := by
  have step : ∀ k, n / 2 ^ (k + 8) = n / 2 ^ k / 256 := by
    intro k; rw [Nat.div_div_eq_div_mul, Nat.pow_add]
  rw [step 48, step 40, step 32, step 24, step 16, step 8, step 0]
  simp only [Nat.pow_zero, Nat.div_one]
  generalize h1 : n / 256 = q1
  generalize h2 : q1 / 256 = q2
  generalize h3 : q2 / 256 = q3
  generalize h4 : q3 / 256 = q4
  generalize h5 : q4 / 256 = q5
  generalize h6 : q5 / 256 = q6
  generalize h7 : q6 / 256 = q7
  have e0 : n % 256 = n - 256 * q1 := by omega
  have e1 : q1 % 256 = q1 - 256 * q2 := by omega
  have e2 : q2 % 256 = q2 - 256 * q3 := by omega
  have e3 : q3 % 256 = q3 - 256 * q4 := by omega
  have e4 : q4 % 256 = q4 - 256 * q5 := by omega
  have e5 : q5 % 256 = q5 - 256 * q6 := by omega
  have e6 : q6 % 256 = q6 - 256 * q7 := by omega
  have b1 : 256 * q1 ≤ n := by omega
  have b2 : 256 * q2 ≤ q1 := by omega
  have b3 : 256 * q3 ≤ q2 := by omega
  have b4 : 256 * q4 ≤ q3 := by omega
  have b5 : 256 * q5 ≤ q4 := by omega
  have b6 : 256 * q6 ≤ q5 := by omega
  have b7 : 256 * q7 ≤ q6 := by omega
  have e7 : q7 % 256 = q7 := by
    clear e0 e1 e2 e3 e4 e5 e6 h1 h2 h3 h4 h5 h6 h7
    omega
  rw [e0, e1, e2, e3, e4, e5, e6, e7]
  clear e0 e1 e2 e3 e4 e5 e6 e7 h1 h2 h3 h4 h5 h6 h7 step h
  omega

theorem loadGint_eq (m : Bytes) (a : Nat) (w : Word) (h : At m a (gintBytes w)) : loadGint m a = w := by
  have hb : ∀ i, i < 8 → (m (a + i)).toNat = w.toNat / 2 ^ (8 * i) % 256 := by
    intro i hi
    have := h i (by simpa [gintBytes] using hi)
    rw [this]
    simp [gintBytes, Nat.shiftRight_eq_div_pow]
  have h0 := hb 0 (by omega)
  have h1 := hb 1 (by omega)
  have h2 := hb 2 (by omega)
  have h3 := hb 3 (by omega)
  have h4 := hb 4 (by omega)
  have h5 := hb 5 (by omega)
  have h6 := hb 6 (by omega)
  have h7 := hb 7 (by omega)
  unfold loadGint
  rw [Nat.add_zero] at h0
  rw [h0, h1, h2, h3, h4, h5, h6, h7]
  have e := digits8 w.toNat w.isLt
  rw [e, BitVec.ofNat_toNat, BitVec.setWidth_eq]

/-! ## Objects in a pool -/

/-- What was put into the pool. -/
inductive Obj where
  | pair (x y : Word)
  | atom (type : Int) (s1 s2 : Option (List (BitVec 8)))

/-- A string without a 0 byte (the only ones a C string can denote). -/
def NoNul (s : Option (List (BitVec 8))) : Prop := 0#8 ∉ s.getD []

instance (s : Option (List (BitVec 8))) : Decidable (NoNul s) := by unfold NoNul; infer_instance

/-- Histories of pool use: any allocations, then pairs, atoms and further allocations in any order. `objs` lists the objects made so far with
their addresses; `m` is the memory. Strings are below 1 GiB in total. -/
inductive Use : Pool → Bytes → Nat → List (Nat × Nat) → List (Nat × Nat) → List (Nat × Obj) → Prop
  | start {p hdr got given} (m : Bytes) : Hist p hdr got given → Use p m hdr got given []
  | alloc {p m hdr got given objs p' got' given'} (bytes : Int) (r : Option Nat) : Use p m hdr got given objs → bytes ≤ 2 ^ 30 - 4 →
      MallocOk got (extendBytes p bytes) r → p' = (alloc p bytes r).1 →
      got' = gotAfter p bytes r got →
      given' = (if (alloc p bytes r).2 = 0 then given else ((alloc p bytes r).2, bytes.toNat) :: given) →
      Use p' m hdr got' given' objs
  /-- The user writes into a block of their own. -/
  | write {p m hdr got given objs} (a : Nat) (l : List (BitVec 8)) : Use p m hdr got given objs →
      (∀ x ∈ objs, match x.2 with
        | .pair _ _ => Apart (a, l.length) (x.1, 16)
        | .atom t s1 s2 => Apart (a, l.length) (x.1, (atomBytes t s1 s2).length)) →
      Use p (storeList m a l) hdr got given objs
  | pair {p m hdr got given objs got' given'} (x y : Word) (r : Option Nat) : Use p m hdr got given objs → MallocOk got (extendBytes p 16) r →
      got' = gotAfter p 16 r got →
      given' = (if (alloc p 16 r).2 = 0 then given else ((alloc p 16 r).2, 16) :: given) →
      Use (mkpair p m r x y).1 (mkpair p m r x y).2.1 hdr got' given'
        (if (mkpair p m r x y).2.2 = 0 then objs else ((mkpair p m r x y).2.2, .pair x y) :: objs)
  | atom {p m hdr got given objs got' given'} (t : Int) (s1 s2 : Option (List (BitVec 8))) (r : Option Nat) : Use p m hdr got given objs →
      ((s1.getD []).length + (s2.getD []).length + 4 : Int) ≤ 2 ^ 30 - 4 → NoNul s1 → NoNul s2 → MallocOk got (extendBytes p (atomSize s1 s2)) r →
      got' = gotAfter p (atomSize s1 s2) r got →
      given' = (if (alloc p (atomSize s1 s2) r).2 = 0 then given else ((alloc p (atomSize s1 s2) r).2, (atomSize s1 s2).toNat) :: given) →
      Use (mkatom p m r t s1 s2).1 (mkatom p m r t s1 s2).2.1 hdr got' given'
        (if (mkatom p m r t s1 s2).2.2 = 0 then objs else ((mkatom p m r t s1 s2).2.2, .atom t s1 s2) :: objs)

/-- The bytes of an object. -/
def Obj.bytes : Obj → List (BitVec 8)
  | .pair x y => gintBytes x ++ gintBytes y
  | .atom t s1 s2 => atomBytes t s1 s2

/-- The block of an object at `ptr`. -/
def Obj.block (ptr : Nat) : Obj → Nat × Nat
  | .pair _ _ => (ptr, 16)
  | .atom t s1 s2 => (ptr - 1, (atomBytes t s1 s2).length + 1)

def Obj.Ok : Obj → Prop
  | .pair _ _ => True
  | .atom _ s1 s2 => NoNul s1 ∧ NoNul s2

theorem atomBytes_length (t : Int) (s1 s2 : Option (List (BitVec 8))) :
    (atomBytes t s1 s2).length = (s1.getD []).length + (s2.getD []).length + 3 := by
  simp [atomBytes]; omega

theorem atomSize_eq (s1 s2 : Option (List (BitVec 8))) (h : ((s1.getD []).length + (s2.getD []).length + 4 : Int) ≤ 2 ^ 30 - 4) :
    atomSize s1 s2 = (s1.getD []).length + (s2.getD []).length + 4 := by
  unfold atomSize
  rw [int32_id (x := 2 + _) (by omega) (by omega), int32_id (x := 2 + _ + 1) (by omega) (by omega),
    int32_id (x := 2 + _ + 1 + _) (by omega) (by omega), int32_id (by omega) (by omega)]
  omega

structure UInv (p : Pool) (m : Bytes) (hdr : Nat) (got given : List (Nat × Nat)) (objs : List (Nat × Obj)) : Prop where
  hist : Hist p hdr got given
  obj : ∀ x ∈ objs, 0 < x.1 ∧ x.2.Ok ∧ Obj.block x.1 x.2 ∈ given ∧ At m x.1 x.2.bytes

theorem bytes_in_block (ptr : Nat) (o : Obj) (h : 0 < ptr) : (Obj.block ptr o).1 ≤ ptr ∧ ptr + o.bytes.length ≤ (Obj.block ptr o).1 + (Obj.block ptr o).2 := by
  cases o with
  | pair x y => simp [Obj.block, Obj.bytes, gintBytes]
  | atom t s1 s2 => simp only [Obj.block, Obj.bytes]; omega

theorem at_store {m : Bytes} {a : Nat} {l : List (BitVec 8)} {ptr : Nat} {k : List (BitVec 8)} (h : At m ptr k)
    (hap : ptr + k.length ≤ a ∨ a + l.length ≤ ptr) : At (storeList m a l) ptr k := by
  intro i hi
  rw [storeList_out _ _ _ _ (by omega)]
  exact h i hi

theorem at_self (m : Bytes) (a : Nat) (l : List (BitVec 8)) : At (storeList m a l) a l := fun i hi => storeList_in m a l i hi

/-- A new block is apart from the blocks of all objects. -/
theorem new_apart {p : Pool} {hdr : Nat} {got given : List (Nat × Nat)} {b : Nat × Nat} (h : Hist p hdr got (b :: given)) (c : Nat × Nat)
    (hc : c ∈ given) : Apart b c :=
  (List.pairwise_cons.1 (C41_blocks_partial h).2).1 c hc

theorem uinv_new {p p' : Pool} {m : Bytes} {hdr : Nat} {got got' given : List (Nat × Nat)} {objs : List (Nat × Obj)} (h : UInv p m hdr got given objs)
    (b : Nat × Nat) (hh : Hist p' hdr got' (b :: given)) (ptr : Nat) (o : Obj) (hb : Obj.block ptr o = b) (h0 : 0 < ptr) (hok : o.Ok) (m' : Bytes)
    (hat : At m' ptr o.bytes) (hm : ∀ x, x < ptr ∨ ptr + o.bytes.length ≤ x → m' x = m x) : UInv p' m' hdr got' (b :: given) ((ptr, o) :: objs) := by
  refine ⟨hh, fun x hx => ?_⟩
  rcases List.mem_cons.1 hx with rfl | hx
  · exact ⟨h0, hok, by rw [hb]; exact List.mem_cons_self .., hat⟩
  · obtain ⟨i1, i2, i3, i4⟩ := h.obj x hx
    refine ⟨i1, i2, List.mem_cons_of_mem _ i3, ?_⟩
    have hap := new_apart hh _ i3
    have q1 := bytes_in_block ptr o h0
    have q2 := bytes_in_block x.1 x.2 i1
    rw [hb] at q1
    intro i hi
    simp only [Apart] at hap
    rw [hm _ (by omega)]
    exact i4 i hi

theorem mkatom_eq (p : Pool) (m : Bytes) (r : Option Nat) (t : Int) (s1 s2 : Option (List (BitVec 8))) :
    mkatom p m r t s1 s2 = if (alloc p (atomSize s1 s2) r).2 = 0 then ((alloc p (atomSize s1 s2) r).1, m, 0) else
      ((alloc p (atomSize s1 s2) r).1, storeList m ((alloc p (atomSize s1 s2) r).2 + 1) (atomBytes t s1 s2), (alloc p (atomSize s1 s2) r).2 + 1) := rfl

theorem mkpair_eq (p : Pool) (m : Bytes) (r : Option Nat) (x y : Word) :
    mkpair p m r x y = if (alloc p 16 r).2 = 0 then ((alloc p 16 r).1, m, 0) else
      ((alloc p 16 r).1, storeList (storeList m (alloc p 16 r).2 (gintBytes x)) ((alloc p 16 r).2 + 8) (gintBytes y), (alloc p 16 r).2) := rfl

theorem uinv_pair {p p' : Pool} {m : Bytes} {hdr : Nat} {got got' given : List (Nat × Nat)} {objs : List (Nat × Obj)} (ih : UInv p m hdr got given objs)
    (a : Nat) (h0 : 0 < a) (x y : Word) (hh : Hist p' hdr got' ((a, 16) :: given)) :
    UInv p' (storeList (storeList m a (gintBytes x)) (a + 8) (gintBytes y)) hdr got' ((a, 16) :: given) ((a, .pair x y) :: objs) := by
  have l8 : ∀ w, (gintBytes w).length = 8 := by intro w; simp [gintBytes]
  refine uinv_new ih _ hh _ (.pair x y) rfl h0 trivial _ ?_ ?_
  · intro i hi
    simp only [Obj.bytes, List.length_append, l8] at hi ⊢
    by_cases h8 : i < 8
    · rw [List.getElem_append_left (by rw [l8]; exact h8), storeList_out _ _ _ _ (by omega), storeList_in _ _ _ _ (by rw [l8]; exact h8)]
    · rw [List.getElem_append_right (by rw [l8]; omega)]
      have := storeList_in (storeList m a (gintBytes x)) (a + 8) (gintBytes y) (i - 8) (by rw [l8]; omega)
      rw [show a + i = a + 8 + (i - 8) by omega, this]
      simp [l8]
  · intro z hz
    simp only [Obj.bytes, List.length_append, l8] at hz
    rw [storeList_out _ _ _ _ (by rw [l8]; omega), storeList_out _ _ _ _ (by rw [l8]; omega)]

theorem uinv_pair' {p p' : Pool} {m : Bytes} {hdr : Nat} {got got' given : List (Nat × Nat)} {objs : List (Nat × Obj)} (ih : UInv p m hdr got given objs)
    (a : Nat) (x y : Word) (v : Pool × Bytes × Nat)
    (hv : v = if a = 0 then (p', m, 0) else (p', storeList (storeList m a (gintBytes x)) (a + 8) (gintBytes y), a))
    (hh : Hist p' hdr got' (if a = 0 then given else (a, 16) :: given)) :
    UInv v.1 v.2.1 hdr got' (if a = 0 then given else (a, 16) :: given) (if v.2.2 = 0 then objs else (v.2.2, .pair x y) :: objs) := by
  subst hv
  by_cases h0 : a = 0
  · simp only [h0, if_true] at hh ⊢
    exact ⟨hh, ih.obj⟩
  · simp only [h0, if_false] at hh ⊢
    exact uinv_pair ih a (by omega) x y hh

theorem uinv_atom' {p p' : Pool} {m : Bytes} {hdr : Nat} {got got' given : List (Nat × Nat)} {objs : List (Nat × Obj)} (ih : UInv p m hdr got given objs)
    (a z : Nat) (t : Int) (s1 s2 : Option (List (BitVec 8))) (hz : z = (s1.getD []).length + (s2.getD []).length + 4)
    (hn1 : NoNul s1) (hn2 : NoNul s2) (v : Pool × Bytes × Nat)
    (hv : v = if a = 0 then (p', m, 0) else (p', storeList m (a + 1) (atomBytes t s1 s2), a + 1))
    (hh : Hist p' hdr got' (if a = 0 then given else (a, z) :: given)) :
    UInv v.1 v.2.1 hdr got' (if a = 0 then given else (a, z) :: given) (if v.2.2 = 0 then objs else (v.2.2, .atom t s1 s2) :: objs) := by
  subst hv
  by_cases h0 : a = 0
  · simp only [h0, if_true] at hh ⊢
    exact ⟨hh, ih.obj⟩
  · simp only [h0, if_false, Nat.add_one_ne_zero] at hh ⊢
    refine uinv_new ih _ hh _ (.atom t s1 s2) ?_ (Nat.succ_pos _) ⟨hn1, hn2⟩ _ (at_self _ _ _) (fun x hx => storeList_out _ _ _ _ hx)
    refine Prod.ext (by simp [Obj.block]) ?_
    simp only [Obj.block, atomBytes_length, hz]

theorem alloc16 {p : Pool} {hdr : Nat} {got given : List (Nat × Nat)} (h : Hist p hdr got given) (z : Int) (n : Nat) (hz : z = n) (hle : z ≤ 2 ^ 30 - 4)
    (r : Option Nat) (hm : MallocOk got (extendBytes p z) r) :
    Hist (alloc p z r).1 hdr (gotAfter p z r got) (if (alloc p z r).2 = 0 then given else ((alloc p z r).2, n) :: given) := by
  have := Hist.alloc z r h hle hm
  rwa [show z.toNat = n by omega] at this

theorem use_inv {p : Pool} {m : Bytes} {hdr : Nat} {got given : List (Nat × Nat)} {objs : List (Nat × Obj)} (h : Use p m hdr got given objs) :
    UInv p m hdr got given objs := by
  induction h with
  | start m h => exact ⟨h, by simp⟩
  | alloc bytes r _ hle hm e1 e2 e3 ih =>
    subst e1; subst e2; subst e3
    refine ⟨Hist.alloc bytes r ih.hist hle hm, fun x hx => ?_⟩
    obtain ⟨i1, i2, i3, i4⟩ := ih.obj x hx
    refine ⟨i1, i2, ?_, i4⟩
    split
    · exact i3
    · exact List.mem_cons_of_mem _ i3
  | write a l _ hw ih =>
    refine ⟨ih.hist, fun x hx => ?_⟩
    obtain ⟨i1, i2, i3, i4⟩ := ih.obj x hx
    refine ⟨i1, i2, i3, at_store i4 ?_⟩
    have := hw x hx
    cases ho : x.2 with
    | pair y z => rw [ho] at this; simp only [Apart] at this; simp [Obj.bytes, gintBytes]; omega
    | atom t s1 s2 => rw [ho] at this; simp only [Apart] at this; simp only [Obj.bytes]; omega
  | @pair p m hdr got given objs got' given' x y r hu hm e1 e2 ih =>
    rw [e1, e2]
    exact uinv_pair' ih _ x y _ (mkpair_eq ..) (alloc16 ih.hist 16 16 (by norm_num) (by norm_num) r hm)
  | @atom p m hdr got given objs got' given' t s1 s2 r hu hlen hn1 hn2 hm e1 e2 ih =>
    have hsz := atomSize_eq s1 s2 hlen
    rw [e1, e2]
    exact uinv_atom' ih _ _ t s1 s2 (by omega) hn1 hn2 _ (mkatom_eq ..) (alloc16 ih.hist _ _ (by omega) (by omega) r hm)

theorem cstr_at (m : Bytes) (a : Nat) (s rest : List (BitVec 8)) (h : At m a (s ++ 0#8 :: rest)) (hn : 0#8 ∉ s) (n : Nat) (hl : s.length < n) :
    cstr m n a = some s := by
  induction s generalizing a n with
  | nil =>
    obtain ⟨n, rfl⟩ : ∃ k, n = k + 1 := ⟨n - 1, by simp at hl; omega⟩
    have := h 0 (by simp)
    simp only [cstr]
    rw [if_pos (by simpa using this)]
  | cons b t ih =>
    obtain ⟨n, rfl⟩ : ∃ k, n = k + 1 := ⟨n - 1, by simp at hl; omega⟩
    have hb : m a = b := by have := h 0 (by simp); simpa using this
    have ht : At m (a + 1) (t ++ 0#8 :: rest) := by
      intro i hi
      have := h (i + 1) (by simpa using hi)
      rw [show a + 1 + i = a + (i + 1) by omega, this]
      simp
    have hb0 : b ≠ 0#8 := by rintro rfl; exact hn (List.mem_cons_self ..)
    have := ih (a + 1) ht (fun h => hn (List.mem_cons_of_mem _ h)) n (by simpa using hl)
    simp only [cstr, this, hb, if_neg hb0, Option.map_some]

theorem at_append {m : Bytes} {a : Nat} {s t : List (BitVec 8)} (h : At m a (s ++ t)) : At m a s ∧ At m (a + s.length) t := by
  constructor
  · intro i hi
    rw [h i (by simp; omega), List.getElem_append_left]
  · intro i hi
    have := h (s.length + i) (by simp; omega)
    rw [show a + s.length + i = a + (s.length + i) by omega, this, List.getElem_append_right (by omega)]
    simp

/-- The pointer `q` (0 for NULL) denotes the string `s`, where an empty or missing string reads as NULL. -/
def Denotes (m : Bytes) (q : Nat) (s : Option (List (BitVec 8))) : Prop :=
  if s.getD [] = [] then q = 0 else q ≠ 0 ∧ ∀ n, (s.getD []).length < n → cstr m n q = some (s.getD [])

/-- C42, pairs: at any later time in any history, `wg_first` and `wg_rest` give what the pair was made of. -/
theorem C42_pairs {p : Pool} {m : Bytes} {hdr : Nat} {got given : List (Nat × Nat)} {objs : List (Nat × Obj)} (h : Use p m hdr got given objs)
    {ptr : Nat} {x y : Word} (ho : (ptr, .pair x y) ∈ objs) : first m ptr = x ∧ rest m ptr = y := by
  obtain ⟨_, _, _, hat⟩ := (use_inv h).obj _ ho
  obtain ⟨h1, h2⟩ := at_append hat
  have : (gintBytes x).length = 8 := by simp [gintBytes]
  rw [this] at h2
  exact ⟨loadGint_eq m ptr x h1, loadGint_eq m (ptr + 8) y h2⟩

/-- C42, atoms: at any later time in any history the atom occupies exactly the block allocated for it, `wg_atomtype` gives its type and
`wg_atomstr1` its first string; `wg_atomstr2` gives the second string if it has two or more characters and the type is not 0.
Missing for the full property: second strings that are shorter, for which the code is wrong (`C42_second_counterexample`,
`C42_empty_second_counterexample`), and type 0 (`C42_type0_counterexample`). -/
theorem C42_atoms_partial {p : Pool} {m : Bytes} {hdr : Nat} {got given : List (Nat × Nat)} {objs : List (Nat × Obj)} (h : Use p m hdr got given objs)
    {ptr : Nat} {t : Int} {s1 s2 : Option (List (BitVec 8))} (ho : (ptr, .atom t s1 s2) ∈ objs) :
    (∃ b ∈ given, b.1 + 1 = ptr ∧ b.1 + b.2 = ptr + (s1.getD []).length + (s2.getD []).length + 3) ∧
    (-128 ≤ t → t < 128 → atomtype m ptr = t) ∧
    Denotes m (atomstr1 m ptr) s1 ∧
    (t % 256 ≠ 0 → 2 ≤ (s2.getD []).length → ∀ n, (s1.getD []).length + 1 < n → ∃ q, atomstr2 m n ptr = some q ∧ Denotes m q s2) := by
  obtain ⟨h0, ⟨hn1, hn2⟩, hbl, hat⟩ := (use_inv h).obj _ ho
  simp only at h0 hbl hat
  simp only [Obj.bytes, atomBytes, List.cons_append, List.append_assoc] at hat
  have ht : m ptr = BitVec.ofInt 8 t := by have := hat 0 (by simp); simpa using this
  have hat1 : At m (ptr + 1) (s1.getD [] ++ 0#8 :: (s2.getD [] ++ [0#8])) := by
    intro i hi
    have := hat (i + 1) (by simp at hi ⊢; omega)
    rw [show ptr + 1 + i = ptr + (i + 1) by omega, this]
    simp
  have hat2 : At m (ptr + 1 + (s1.getD []).length + 1) (s2.getD [] ++ [0#8]) := by
    have := (at_append hat1).2
    intro i hi
    have := this (i + 1) (by simp at hi ⊢; omega)
    rw [show ptr + 1 + (s1.getD []).length + 1 + i = ptr + 1 + (s1.getD []).length + (i + 1) by omega, this]
    simp
  refine ⟨⟨_, hbl, ?_, ?_⟩, ?_, ?_, ?_⟩
  · simp only [Obj.block]; omega
  · simp only [Obj.block, atomBytes_length]; omega
  · intro h1 h2
    unfold atomtype
    rw [if_neg (by omega), ht, BitVec.toInt_ofInt, Int.bmod_def]
    split <;> omega
  · unfold Denotes atomstr1
    rw [if_neg (show ¬ ptr = 0 by omega)]
    have hf := hat1 0 (by simp)
    rcases hs : s1.getD [] with _ | ⟨b, tl⟩
    · have : m (ptr + 1) = 0#8 := by simpa [hs] using hf
      simp [this]
    · have hb : m (ptr + 1) = b := by simpa [hs] using hf
      have hb0 : b ≠ 0#8 := by
        rintro rfl
        exact hn1 (by rw [hs]; exact List.mem_cons_self ..)
      rw [if_neg (by simp), if_neg (by rw [hb]; exact hb0)]
      refine ⟨by omega, fun n hn => ?_⟩
      rw [← hs] at hn ⊢
      exact cstr_at m _ _ _ hat1 hn1 n hn
  · intro htn hlen n hn
    have ht0 : BitVec.ofInt 8 t ≠ 0#8 := by
      intro hc
      have := congrArg BitVec.toNat hc
      simp [BitVec.toNat_ofInt] at this
      omega
    have hc : cstr m n ptr = some (BitVec.ofInt 8 t :: s1.getD []) := by
      apply cstr_at m ptr (BitVec.ofInt 8 t :: s1.getD []) (s2.getD [] ++ [0#8])
      · simpa using hat
      · intro hmem
        rcases List.mem_cons.1 hmem with h | h
        · exact ht0 h.symm
        · exact hn1 h
      · simpa using hn
    refine ⟨ptr + 1 + (s1.getD []).length + 1, ?_, ?_⟩
    · unfold atomstr2
      rw [if_neg (by omega), hc]
      simp only [Option.map_some, List.length_cons, Option.some.injEq]
      rw [show ptr + ((s1.getD []).length + 1) + 1 = ptr + 1 + (s1.getD []).length + 1 by omega]
      have h2 := hat2 1 (by simp; omega)
      rw [List.getElem_append_left (by omega)] at h2
      rw [if_neg]
      rw [h2]
      intro hc
      exact hn2 (by rw [← hc]; exact List.getElem_mem _)
    · unfold Denotes
      rw [if_neg (by intro hc; rw [hc] at hlen; simp at hlen)]
      exact ⟨by omega, fun n hn => cstr_at m _ _ [] hat2 hn2 n hn⟩

/-! ### A history, and the failing cases -/

theorem exPool : Hist ⟨3420, ⟨1028, 1001, 4445⟩, []⟩ 1001 [(1001, 3444)] [] := by
  have h := Hist.create 1001 0 (by decide) ⟨by decide, by decide, by decide, by simp⟩
  have e1 : create 1001 0 = ⟨3420, ⟨1028, 1001, 4445⟩, []⟩ := by decide
  have e : (createBytes 0).toNat = 3444 := by decide
  rw [e, e1] at h
  exact h

/-- Use of the pool for one atom. -/
theorem exAtom (m : Bytes) (t : Int) (s1 s2 : Option (List (BitVec 8))) (h : (s1.getD []).length + (s2.getD []).length ≤ 100) (h1 : NoNul s1) (h2 : NoNul s2) :
    ∃ p got, Use p (storeList m 3421 (atomBytes t s1 s2)) 1001 got [(3420, (atomSize s1 s2).toNat)] [(3421, .atom t s1 s2)] := by
  have hs := atomSize_eq s1 s2 (by omega)
  have ha : alloc ⟨3420, ⟨1028, 1001, 4445⟩, []⟩ (atomSize s1 s2) none = (⟨align (3420 + (atomSize s1 s2).toNat), ⟨1028, 1001, 4445⟩, []⟩, 3420) := by
    unfold alloc
    rw [if_neg (by omega), if_neg (by simp only []; omega)]
  have := Use.atom t s1 s2 none (Use.start m exPool) (by omega) h1 h2 trivial rfl rfl
  have em : mkatom ⟨3420, ⟨1028, 1001, 4445⟩, []⟩ m none t s1 s2 = (⟨align (3420 + (atomSize s1 s2).toNat), ⟨1028, 1001, 4445⟩, []⟩,
      storeList m 3421 (atomBytes t s1 s2), 3421) := by
    unfold mkatom
    rw [ha]
    simp
  rw [em, ha] at this
  exact ⟨_, _, this⟩

/-- A string with language: type 5, "ab", "en". -/
def exS1 : Option (List (BitVec 8)) := some [97#8, 98#8]
def exS2 : Option (List (BitVec 8)) := some [101#8, 110#8]

example : ∃ m q, atomtype m 3421 = 5 ∧ cstr m 10 (atomstr1 m 3421) = some [97#8, 98#8] ∧ atomstr2 m 10 3421 = some q ∧ cstr m 10 q = some [101#8, 110#8] := by
  obtain ⟨p, got, h⟩ := exAtom (fun _ => 1#8) 5 exS1 exS2 (by decide) (by decide) (by decide)
  obtain ⟨_, h2, h3, h4⟩ := C42_atoms_partial h (List.mem_singleton.2 rfl)
  obtain ⟨q, hq, hd⟩ := h4 (by decide) (by decide) 10 (by decide)
  simp only [Denotes, exS1, exS2, Option.getD_some, reduceCtorEq, if_false] at h3 hd
  exact ⟨_, q, h2 (by decide) (by decide), h3.2 10 (by decide), hq, hd.2 10 (by decide)⟩

example : ∃ m, first m 3420 = 7#64 ∧ rest m 3420 = 9#64 := by
  have hu := Use.pair 7#64 9#64 none (Use.start (fun _ => 1#8) exPool) trivial rfl rfl
  have ea : alloc ⟨3420, ⟨1028, 1001, 4445⟩, []⟩ 16 none = (⟨3436, ⟨1028, 1001, 4445⟩, []⟩, 3420) := by decide
  have em : (mkpair ⟨3420, ⟨1028, 1001, 4445⟩, []⟩ (fun _ => 1#8) none 7#64 9#64).2.2 = 3420 := by unfold mkpair; rw [ea]; simp
  rw [em] at hu
  exact ⟨_, C42_pairs hu (List.mem_singleton.2 rfl)⟩

/-- The full property fails: a second string of one character reads as NULL (type 5, "ab", "e"). -/
theorem C42_second_counterexample : ∃ p m got given, Use p m 1001 got given [(3421, .atom 5 exS1 (some [101#8]))] ∧ atomstr2 m 10 3421 = some 0 := by
  obtain ⟨p, got, h⟩ := exAtom (fun _ => 1#8) 5 exS1 (some [101#8]) (by decide) (by decide) (by decide)
  exact ⟨p, _, got, _, h, by decide +kernel⟩

/-- The full property fails: without a second string the code reads the byte after the atom's block; if it is not 0 the result is not
NULL. -/
theorem C42_empty_second_counterexample : ∃ p m got given, Use p m 1001 got given [(3421, .atom 5 exS1 none)] ∧ atomstr2 m 10 3421 = some 3425 ∧
    (∀ b ∈ given, b.1 + b.2 ≤ 3426) := by
  obtain ⟨p, got, h⟩ := exAtom (fun _ => 1#8) 5 exS1 none (by decide) (by decide) (by decide)
  exact ⟨p, _, got, _, h, by decide +kernel, by decide⟩

/-- The full property fails for type 0: the first string is taken for the second. -/
theorem C42_type0_counterexample : ∃ p m got given, Use p m 1001 got given [(3421, .atom 0 exS1 exS2)] ∧ atomstr2 m 10 3421 = some (atomstr1 m 3421) ∧
    atomstr1 m 3421 ≠ 0 := by
  obtain ⟨p, got, h⟩ := exAtom (fun _ => 1#8) 0 exS1 exS2 (by decide) (by decide) (by decide)
  exact ⟨p, _, got, _, h, by decide +kernel, by decide +kernel⟩

end WG.MPool
