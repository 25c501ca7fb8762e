import Verif.ResultSet.Model
import Mathlib.Tactic.SplitIfs
import Mathlib.Data.List.Perm.Subperm
import Mathlib.Data.List.Nodup
import Mathlib.Data.Nat.Prime.Basic
import Mathlib.Data.Nat.ModEq
import Mathlib.Data.Int.GCD
import Mathlib.Tactic.Ring
import Mathlib.Tactic.ByContra

/-!
# The hash set: double hashing finds every key and every free slot
-/

namespace WG.ResultSet

/-! ## Table sizes are prime -/

/-- No number from 2 to `k + 1` divides `n`. -/
def noDiv (n : Nat) : Nat → Bool
  | 0 => true
  | k + 1 => (n % (k + 2) != 0) && noDiv n k

theorem noDiv_spec (n k : Nat) (h : noDiv n k = true) : ∀ d, 2 ≤ d → d ≤ k + 1 → ¬d ∣ n := by
  induction k with
  | zero => intro d h1 h2; omega
  | succ k ih =>
    simp only [noDiv, Bool.and_eq_true, bne_iff_ne] at h
    intro d h1 h2 hd
    by_cases hk : d = k + 2
    · subst hk; exact h.1 (Nat.mod_eq_zero_of_dvd hd)
    · exact ih h.2 d h1 (by omega) hd

theorem prime_of_noDiv (n k : Nat) (h2 : 2 ≤ n) (hk : n < (k + 2) * (k + 2)) (h : noDiv n k = true) : n.Prime := by
  by_contra hp
  obtain ⟨m, hm, h1, h3⟩ : ∃ m, m ∣ n ∧ 2 ≤ m ∧ m ≤ k + 1 := by
    refine ⟨n.minFac, Nat.minFac_dvd n, (Nat.minFac_prime (by omega)).two_le, ?_⟩
    by_contra hlt
    have := Nat.minFac_sq_le_self (by omega) hp
    have h4 : k + 2 ≤ n.minFac := by omega
    have := Nat.mul_le_mul h4 h4
    rw [Nat.pow_two] at *
    omega
  exact noDiv_spec n k h m h1 h3 hm

/-- The sizes that can be chosen are prime (a finite table of 20 entries). -/
theorem primes_prime : ∀ i, i < 20 → (primes.getD i 0).Prime := by
  have h : ∀ i, i < 20 → (2 ≤ primes.getD i 0 ∧ primes.getD i 0 < (14189 + 2) * (14189 + 2)) := by decide
  have hs : ∀ i, i < 20 → ∃ k, primes.getD i 0 < (k + 2) * (k + 2) ∧ noDiv (primes.getD i 0) k = true := by
    intro i hi
    have hb : ∀ i, i < 20 → (primes.getD i 0 < ((primes.getD i 0).sqrt + 2) * ((primes.getD i 0).sqrt + 2)) ∧
        noDiv (primes.getD i 0) (Nat.sqrt (primes.getD i 0)) = true := by decide +kernel
    exact ⟨_, hb i hi⟩
  intro i hi
  obtain ⟨k, h1, h2⟩ := hs i hi
  exact prime_of_noDiv _ k (h i hi).1 h1 h2

theorem pickPrime_mem (want i : Nat) : ∃ j, i ≤ j ∧ (j < 20 ∨ j = i) ∧ pickPrime want i = primes.getD j 0 ∧ (want < primes.getD j 0 ∨ 19 ≤ j) := by
  induction h : 19 - i generalizing i with
  | zero =>
    rw [pickPrime, if_neg (by omega)]
    exact ⟨i, Nat.le_refl _, .inr rfl, rfl, .inr (by omega)⟩
  | succ n ih =>
    rw [pickPrime, if_pos (by omega)]
    split_ifs with hp
    · exact ⟨i, Nat.le_refl _, .inr rfl, rfl, .inl hp⟩
    · obtain ⟨j, h1, h2, h3, h4⟩ := ih (i + 1) (by omega)
      exact ⟨j, by omega, .inl (by omega), h3, h4⟩

theorem dhashSize_spec (n : Nat) (h : dhashSize n ≠ 0) : (dhashSize n).Prime ∧ 2 < dhashSize n ∧ (n ≤ 201326611 → n ≤ dhashSize n) := by
  unfold dhashSize at *
  split_ifs at * with h1
  · exact absurd rfl h
  · obtain ⟨j, _, h2, h3, h4⟩ := pickPrime_mem (n * 2) 0
    have h20 : j < 20 := by omega
    rw [h3]
    refine ⟨primes_prime j h20, ?_, ?_⟩
    · have : ∀ j, j < 20 → 2 < primes.getD j 0 := by decide
      exact this j h20
    · intro hn
      rcases h4 with h4 | h4
      · omega
      · have : j = 19 := by omega
        subst this
        exact hn

theorem dhashSize_zero (n : Nat) (h : n ≤ 201326611) : dhashSize n ≠ 0 := by
  unfold dhashSize
  rw [if_neg (by omega)]
  obtain ⟨j, _, h2, h3, _⟩ := pickPrime_mem (n * 2) 0
  rw [h3]
  exact (primes_prime j (by omega)).ne_zero

/-! ## Probing -/

/-- The `i`-th slot probed for `key`. -/
def pos (hash : Nat → Nat) (sz key i : Nat) : Nat := (hash key % sz + i * (1 + hash key % (sz - 1))) % sz

theorem pos_lt (hash : Nat → Nat) {sz : Nat} (h : 0 < sz) (key i : Nat) : pos hash sz key i < sz := Nat.mod_lt _ h

theorem pos_zero (hash : Nat → Nat) (sz key : Nat) : pos hash sz key 0 = hash key % sz := by
  simp [pos]

/-- Probing visits every slot of a table of prime size. -/
theorem pos_surj (hash : Nat → Nat) {sz : Nat} (hp : sz.Prime) (h2 : 2 < sz) (key s : Nat) (hs : s < sz) : ∃ i, i < sz ∧ pos hash sz key i = s := by
  have hlt : 1 + hash key % (sz - 1) < sz := by have := Nat.mod_lt (hash key) (show sz - 1 > 0 by omega); omega
  have hco : Nat.Coprime (1 + hash key % (sz - 1)) sz := by
    exact (Nat.coprime_of_lt_prime (by omega) hlt hp).symm
  obtain ⟨m, -, hm⟩ := Nat.exists_mul_mod_eq_one_of_coprime hco (by omega)
  refine ⟨(m * (s + sz - hash key % sz)) % sz, Nat.mod_lt _ (by omega), ?_⟩
  unfold pos
  have hh : hash key % sz < sz := Nat.mod_lt _ (by omega)
  generalize hash key % sz = h1 at *
  generalize 1 + hash key % (sz - 1) = d at *
  have e1 : (m * (s + sz - h1)) % sz * d ≡ s + sz - h1 [MOD sz] := by
    calc (m * (s + sz - h1)) % sz * d ≡ (m * (s + sz - h1)) * d [MOD sz] := (Nat.mod_modEq _ _).mul_right _
      _ = d * m * (s + sz - h1) := by ring
      _ ≡ 1 * (s + sz - h1) [MOD sz] := Nat.ModEq.mul_right _ (by rw [Nat.ModEq, hm, Nat.mod_eq_of_lt (by omega)])
      _ = s + sz - h1 := by ring
  have e2 : h1 + (m * (s + sz - h1)) % sz * d ≡ h1 + (s + sz - h1) [MOD sz] := Nat.ModEq.add_left _ e1
  rw [Nat.ModEq] at e2
  rw [e2, show h1 + (s + sz - h1) = s + sz by omega, Nat.add_mod_right, Nat.mod_eq_of_lt hs]

theorem probe_spec (keys : Nat → Nat) (h1 h2 sz key : Nat) (n : Nat) : ∀ i b,
    (∃ j, i ≤ j ∧ j < i + n ∧ probe keys h1 h2 sz key n i b = (h1 + j * h2) % sz ∧
      (keys ((h1 + j * h2) % sz) = key ∨ keys ((h1 + j * h2) % sz) = 0) ∧
      ∀ k, i ≤ k → k < j → keys ((h1 + k * h2) % sz) ≠ key ∧ keys ((h1 + k * h2) % sz) ≠ 0) ∨
    ((∀ k, i ≤ k → k < i + n → keys ((h1 + k * h2) % sz) ≠ key ∧ keys ((h1 + k * h2) % sz) ≠ 0) ∧
      probe keys h1 h2 sz key n i b = if n = 0 then b else (h1 + (i + n - 1) * h2) % sz) := by
  induction n with
  | zero => intro i b; exact .inr ⟨by omega, by simp [probe]⟩
  | succ n ih =>
    intro i b
    rw [probe]
    by_cases hc : keys ((h1 + i * h2) % sz) = key ∨ keys ((h1 + i * h2) % sz) = 0
    · simp only [hc, if_true]
      exact .inl ⟨i, Nat.le_refl _, by omega, rfl, hc, by omega⟩
    · simp only [hc, if_false]
      rw [not_or] at hc
      rcases ih (i + 1) ((h1 + i * h2) % sz) with ⟨j, a1, a2, a3, a4, a5⟩ | ⟨a1, a2⟩
      · refine .inl ⟨j, by omega, by omega, a3, a4, fun k k1 k2 => ?_⟩
        by_cases hk : k = i
        · subst hk; exact hc
        · exact a5 k (by omega) k2
      · refine .inr ⟨fun k k1 k2 => ?_, ?_⟩
        · by_cases hk : k = i
          · subst hk; exact hc
          · exact a1 k (by omega) (by omega)
        · rw [a2, if_neg (show ¬(n + 1 = 0) by omega)]
          by_cases hn : n = 0
          · subst hn; simp
          · rw [if_neg hn, show i + 1 + n - 1 = i + (n + 1) - 1 by omega]

/-- What a lookup returns: the first probed slot that holds the key or is free, and some slot holding another key if there is none. -/
theorem lookup_spec (hash : Nat → Nat) (t : DHash) (key : Nat) (h2 : 2 < t.size) :
    (∃ j, j < t.size ∧ lookup hash t key = pos hash t.size key j ∧
      (t.keys (pos hash t.size key j) = key ∨ t.keys (pos hash t.size key j) = 0) ∧
      ∀ k, k < j → t.keys (pos hash t.size key k) ≠ key ∧ t.keys (pos hash t.size key k) ≠ 0) ∨
    ((∀ k, k < t.size → t.keys (pos hash t.size key k) ≠ key ∧ t.keys (pos hash t.size key k) ≠ 0) ∧
      ∃ j, j < t.size ∧ lookup hash t key = pos hash t.size key j) := by
  unfold lookup
  simp only
  have h0 := pos_zero hash t.size key
  split_ifs with hc
  · refine .inl ⟨0, by omega, h0.symm, by rw [h0]; exact hc, by omega⟩
  · rw [not_or] at hc
    rcases probe_spec t.keys (hash key % t.size) (1 + hash key % (t.size - 1)) t.size key (t.size - 1) 1 (hash key % t.size) with
      ⟨j, a1, a2, a3, a4, a5⟩ | ⟨a1, a2⟩
    · refine .inl ⟨j, by omega, a3, a4, fun k hk => ?_⟩
      by_cases hk0 : k = 0
      · subst hk0; rw [h0]; exact hc
      · exact a5 k (by omega) hk
    · refine .inr ⟨fun k hk => ?_, t.size - 1, by omega, ?_⟩
      · by_cases hk0 : k = 0
        · subst hk0; rw [h0]; exact hc
        · exact a1 k (by omega) (by omega)
      · rw [a2, if_neg (by omega), show 1 + (t.size - 1) - 1 = t.size - 1 by omega]
        rfl

/-! ## The table as a set -/

/-- The table holds exactly the keys `S`. -/
structure Is (hash : Nat → Nat) (t : DHash) (S : List Nat) : Prop where
  prime : t.size.Prime
  big : 2 < t.size
  nodup : S.Nodup
  nz : 0 ∉ S
  sub : ∀ i, i < t.size → t.keys i ≠ 0 → t.keys i ∈ S
  inj : ∀ i j, i < t.size → j < t.size → t.keys i = t.keys j → t.keys i ≠ 0 → i = j
  path : ∀ k ∈ S, ∃ j, j < t.size ∧ t.keys (pos hash t.size k j) = k ∧ ∀ l, l < j → t.keys (pos hash t.size k l) ≠ 0

theorem is_init (hash : Nat → Nat) (n : Nat) (h : dhashSize n ≠ 0) : Is hash ⟨dhashSize n, fun _ => 0⟩ [] := by
  obtain ⟨h1, h2, _⟩ := dhashSize_spec n h
  exact ⟨h1, h2, .nil, by simp, by simp, by simp, by simp⟩

theorem haskey_iff {hash : Nat → Nat} {t : DHash} {S : List Nat} (h : Is hash t S) {k : Nat} (hk : k ≠ 0) : haskey hash t k = true ↔ k ∈ S := by
  have hsz : 0 < t.size := by have := h.big; omega
  unfold haskey
  rw [beq_iff_eq]
  constructor
  · intro e
    have hl : lookup hash t k < t.size := by
      rcases lookup_spec hash t k h.big with ⟨j, _, a2, _⟩ | ⟨_, j, _, a2⟩
      · rw [a2]; exact pos_lt hash hsz k j
      · rw [a2]; exact pos_lt hash hsz k j
    have := h.sub _ hl (by rw [e]; exact hk)
    rwa [e] at this
  · intro hm
    obtain ⟨j, p1, p2, p3⟩ := h.path k hm
    rcases lookup_spec hash t k h.big with ⟨i, a1, a2, a3, a4⟩ | ⟨a1, _⟩
    · rw [a2]
      rcases a3 with a3 | a3
      · exact a3
      · exfalso
        rcases Nat.lt_trichotomy i j with hij | hij | hij
        · exact p3 i hij a3
        · subst hij; rw [p2] at a3; exact hk a3
        · exact (a4 j hij).1 p2
    · exact absurd p2 (a1 j p1).1

theorem free_slot {hash : Nat → Nat} {t : DHash} {S : List Nat} (h : Is hash t S) (hl : S.length < t.size) : ∃ s, s < t.size ∧ t.keys s = 0 := by
  by_contra hno
  have hno' : ∀ s, s < t.size → t.keys s ≠ 0 := by
    intro s hs e
    exact hno ⟨s, hs, e⟩
  have hnd : ((List.range t.size).map t.keys).Nodup := by
    apply List.Nodup.map_on _ List.nodup_range
    intro x hx y hy e
    rw [List.mem_range] at hx hy
    exact h.inj x y hx hy e (hno' x hx)
  have hsub : ((List.range t.size).map t.keys) ⊆ S := by
    intro y hy
    obtain ⟨x, hx, rfl⟩ := List.mem_map.1 hy
    rw [List.mem_range] at hx
    exact h.sub x hx (hno' x hx)
  have := (List.subperm_of_subset hnd hsub).length_le
  rw [List.length_map, List.length_range] at this
  omega

/-- Adding a key: it fails only if the table is full. -/
theorem addkey_is {hash : Nat → Nat} {t : DHash} {S : List Nat} (h : Is hash t S) {k : Nat} (hk : k ≠ 0) :
    (k ∈ S ∧ addkey hash t k = some t) ∨
    (k ∉ S ∧ S.length ≥ t.size ∧ addkey hash t k = none) ∨
    (k ∉ S ∧ ∃ t', addkey hash t k = some t' ∧ t'.size = t.size ∧ Is hash t' (k :: S)) := by
  have hsz : 0 < t.size := by have := h.big; omega
  by_cases hm : k ∈ S
  · refine .inl ⟨hm, ?_⟩
    have := (haskey_iff h hk).2 hm
    unfold haskey at this
    rw [beq_iff_eq] at this
    unfold addkey
    simp only [this]
    rw [if_neg hk, if_neg (by simp)]
  · refine .inr ?_
    have hno : ∀ i, i < t.size → t.keys i ≠ k := by
      intro i hi e
      exact hm (e ▸ h.sub i hi (by rw [e]; exact hk))
    rcases lookup_spec hash t k h.big with ⟨j, a1, a2, a3, a4⟩ | ⟨a1, j, a2, a3⟩
    · refine .inr ⟨hm, ?_⟩
      have hz : t.keys (pos hash t.size k j) = 0 := a3.resolve_left (hno _ (pos_lt hash hsz k j))
      unfold addkey
      simp only [a2, hz, if_true]
      refine ⟨_, rfl, rfl, ?_⟩
      refine {
        prime := h.prime, big := h.big, nodup := List.nodup_cons.2 ⟨hm, h.nodup⟩, nz := ?_, sub := ?_, inj := ?_, path := ?_ }
      · rw [List.mem_cons, not_or]
        exact ⟨fun e => hk e.symm, h.nz⟩
      · intro i hi
        simp only
        split_ifs with hq
        · intro _; exact List.mem_cons_self ..
        · intro h0; exact List.mem_cons_of_mem _ (h.sub i hi h0)
      · intro i i' hi hi'
        simp only
        split_ifs with q1 q2 q2
        · intros; omega
        · intro e _; exact absurd e.symm (hno i' hi')
        · intro e _; exact absurd e (hno i hi)
        · exact h.inj i i' hi hi'
      · intro x hx
        simp only
        rcases List.mem_cons.1 hx with rfl | hx
        · refine ⟨j, a1, by simp, fun l hl => ?_⟩
          split_ifs
          · exact hk
          · exact (a4 l hl).2
        · obtain ⟨i, p1, p2, p3⟩ := h.path x hx
          have hx0 : x ≠ 0 := by rintro rfl; exact h.nz hx
          refine ⟨i, p1, ?_, fun l hl => ?_⟩
          · rw [if_neg, p2]
            intro e
            rw [e, hz] at p2
            exact hx0 p2.symm
          · split_ifs
            · exact hk
            · exact p3 l hl
    · refine .inl ⟨hm, ?_, ?_⟩
      · by_contra hlt
        obtain ⟨s, hs, hs0⟩ := free_slot h (by omega)
        obtain ⟨i, hi, e⟩ := pos_surj hash h.prime h.big k s hs
        exact (a1 i hi).2 (by rw [e]; exact hs0)
      · unfold addkey
        simp only [a3]
        rw [if_neg (a1 j a2).2, if_pos (a1 j a2).1]

end WG.ResultSet
