import Verif.IndexCat.Spec
import Mathlib.Tactic.SplitIfs
import Mathlib.Data.List.Perm.Subperm
/-!
# Column lists
-/
namespace WG.IndexCat

theorem fold_low (prev : Int) : ∀ (cols : List Int) (lo : Int), prev < lo →
    let r := cols.foldl (fun lo c => if c < lo ∧ prev < c then c else lo) lo
    prev < r ∧ r ≤ lo ∧ (r = lo ∨ r ∈ cols) ∧ ∀ c ∈ cols, prev < c → r ≤ c
  | [], lo, h => ⟨h, Int.le_refl _, Or.inl rfl, fun _ hc => by cases hc⟩
  | c :: cols, lo, h => by
    dsimp only [List.foldl_cons]
    by_cases hc : c < lo ∧ prev < c
    · rw [if_pos hc]
      obtain ⟨h1, h2, h3, h4⟩ := fold_low prev cols c hc.2
      refine ⟨h1, by omega, ?_, ?_⟩
      · rcases h3 with h3 | h3
        · rw [h3]; exact Or.inr (List.mem_cons_self ..)
        · exact Or.inr (List.mem_cons_of_mem _ h3)
      · intro d hd hp
        rcases List.mem_cons.mp hd with rfl | hd
        · exact h2
        · exact h4 d hd hp
    · rw [if_neg hc]
      obtain ⟨h1, h2, h3, h4⟩ := fold_low prev cols lo h
      refine ⟨h1, h2, ?_, ?_⟩
      · rcases h3 with h3 | h3
        · exact Or.inl h3
        · exact Or.inr (List.mem_cons_of_mem _ h3)
      · intro d hd hp
        rcases List.mem_cons.mp hd with rfl | hd
        · omega
        · exact h4 d hd hp

theorem sortFrom_ok (cols : List Int) : ∀ (n : Nat) (prev : Int), prev ≤ 127 →
    (sortFrom cols n prev).Pairwise (· < ·) ∧ (∀ x ∈ sortFrom cols n prev, prev < x ∧ x ≤ 127 ∧ x ∈ cols) ∧ (sortFrom cols n prev).length ≤ n ∧
    ((sortFrom cols n prev).length < n → ∀ x ∈ cols, prev < x → x ≤ 127 → x ∈ sortFrom cols n prev)
  | 0, prev, _ => by simp [sortFrom]
  | n + 1, prev, h => by
    have hf := fold_low prev cols (maxCol + 1) (by simp only [maxCol]; omega)
    dsimp only at hf
    change prev < lowest prev cols ∧ lowest prev cols ≤ maxCol + 1 ∧ (lowest prev cols = maxCol + 1 ∨ lowest prev cols ∈ cols) ∧
      (∀ c ∈ cols, prev < c → lowest prev cols ≤ c) at hf
    obtain ⟨h1, h2, h3, h4⟩ := hf
    rw [sortFrom]
    by_cases hl : lowest prev cols = maxCol + 1
    · rw [if_pos hl]
      refine ⟨List.Pairwise.nil, fun _ hx => (by cases hx), by simp, fun _ x hx hp hm => ?_⟩
      have := h4 x hx hp
      simp only [maxCol] at hl this
      omega
    · rw [if_neg hl]
      have hm : lowest prev cols ≤ 127 := by simp only [maxCol] at hl h2; omega
      obtain ⟨g1, g2, g3, g4⟩ := sortFrom_ok cols n (lowest prev cols) hm
      refine ⟨List.Pairwise.cons (fun x hx => (g2 x hx).1) g1, ?_, by simp only [List.length_cons]; omega, ?_⟩
      · intro x hx
        rcases List.mem_cons.mp hx with rfl | hx
        · exact ⟨h1, hm, h3.resolve_left hl⟩
        · have := g2 x hx
          exact ⟨by omega, this.2⟩
      · intro hlen x hx hp hx7
        by_cases he : x = lowest prev cols
        · rw [he]; exact List.mem_cons_self ..
        · refine List.mem_cons_of_mem _ (g4 (by simp only [List.length_cons] at hlen; omega) x hx ?_ hx7)
          have := h4 x hx hp
          omega

theorem sorted_nodup {l : List Int} (h : l.Pairwise (· < ·)) : l.Nodup := h.imp fun h e => by omega

/-- The sorted list of columns: increasing, and its elements are the columns from 0 to 127. -/
theorem sort_spec (cols : List Int) : (sortColumns cols).Pairwise (· < ·) ∧ ∀ x, x ∈ sortColumns cols ↔ x ∈ cols ∧ 0 ≤ x ∧ x ≤ 127 := by
  obtain ⟨h1, h2, h3, h4⟩ := sortFrom_ok cols cols.length (-1) (by omega)
  change (sortColumns cols).Pairwise (· < ·) at h1
  change ∀ x ∈ sortColumns cols, _ at h2
  refine ⟨h1, fun x => ⟨fun hx => ⟨(h2 x hx).2.2, by have := (h2 x hx).1; omega, (h2 x hx).2.1⟩, ?_⟩⟩
  rintro ⟨hx, h0, h7⟩
  by_cases hl : (sortColumns cols).length < cols.length
  · exact h4 hl x hx (by omega) h7
  · have hsub : (sortColumns cols).Subperm cols := (sorted_nodup h1).subperm fun x hx => (h2 x hx).2.2
    exact (hsub.perm_of_length_le (by omega)).mem_iff.mpr hx

/-- Only lists without duplicates and columns out of range keep their length. -/
theorem sort_length (cols : List Int) : (sortColumns cols).length < cols.length ↔ ¬(cols.Nodup ∧ ∀ x ∈ cols, 0 ≤ x ∧ x ≤ 127) := by
  obtain ⟨h1, h2⟩ := sort_spec cols
  have hsub : (sortColumns cols).Subperm cols := (sorted_nodup h1).subperm fun x hx => ((h2 x).mp hx).1
  constructor
  · rintro hl ⟨hn, hr⟩
    have : cols.Subperm (sortColumns cols) := hn.subperm fun x hx => (h2 x).mpr ⟨hx, hr x hx⟩
    have := this.length_le
    omega
  · intro h
    refine Nat.lt_of_not_le fun hl => h ?_
    have hp := hsub.perm_of_length_le hl
    exact ⟨hp.nodup_iff.mp (sorted_nodup h1), fun x hx => ((h2 x).mp (hp.mem_iff.mpr hx)).2⟩

theorem sort_perm {cols : List Int} (h : ¬(sortColumns cols).length < cols.length) : (sortColumns cols).Perm cols := by
  obtain ⟨h1, h2⟩ := sort_spec cols
  have hsub : (sortColumns cols).Subperm cols := (sorted_nodup h1).subperm fun x hx => ((h2 x).mp hx).1
  exact hsub.perm_of_length_le (by omega)

theorem sorted_ext : ∀ {a b : List Int}, a.Pairwise (· < ·) → b.Pairwise (· < ·) → (∀ x, x ∈ a ↔ x ∈ b) → a = b
  | [], [], _, _, _ => rfl
  | [], y :: b, _, _, h => by have := (h y).mpr (List.mem_cons_self ..); cases this
  | x :: a, [], _, _, h => by have := (h x).mp (List.mem_cons_self ..); cases this
  | x :: a, y :: b, ha, hb, h => by
    obtain ⟨ha1, ha2⟩ := List.pairwise_cons.mp ha
    obtain ⟨hb1, hb2⟩ := List.pairwise_cons.mp hb
    have hxy : x = y := by
      rcases List.mem_cons.mp ((h x).mp (List.mem_cons_self ..)) with h1 | h1
      · exact h1
      · rcases List.mem_cons.mp ((h y).mpr (List.mem_cons_self ..)) with h2 | h2
        · exact h2.symm
        · have := ha1 _ h2; have := hb1 _ h1; omega
    subst hxy
    congr 1
    refine sorted_ext ha2 hb2 fun z => ⟨fun hz => ?_, fun hz => ?_⟩
    · rcases List.mem_cons.mp ((h z).mp (List.mem_cons_of_mem _ hz)) with h1 | h1
      · have := ha1 z hz; omega
      · exact h1
    · rcases List.mem_cons.mp ((h z).mpr (List.mem_cons_of_mem _ hz)) with h1 | h1
      · have := hb1 z hz; omega
      · exact h1

/-- The order of the columns does not matter, nor does repetition. -/
theorem sort_ext {a b : List Int} (h : ∀ x, 0 ≤ x → x ≤ 127 → (x ∈ a ↔ x ∈ b)) : sortColumns a = sortColumns b := by
  refine sorted_ext (sort_spec a).1 (sort_spec b).1 fun x => ?_
  rw [(sort_spec a).2, (sort_spec b).2]
  constructor
  · rintro ⟨h1, h2, h3⟩; exact ⟨(h x h2 h3).mp h1, h2, h3⟩
  · rintro ⟨h1, h2, h3⟩; exact ⟨(h x h2 h3).mpr h1, h2, h3⟩

/-- Two lists of different columns in range have the same sorted list iff they are permutations of each other. -/
theorem sort_eq_iff {a b : List Int} (ha : a.Nodup ∧ ∀ x ∈ a, 0 ≤ x ∧ x ≤ 127) (hb : b.Nodup ∧ ∀ x ∈ b, 0 ≤ x ∧ x ≤ 127) :
    sortColumns a = sortColumns b ↔ a.Perm b := by
  have h1 := sort_perm (fun h => (sort_length a).mp h ha)
  have h2 := sort_perm (fun h => (sort_length b).mp h hb)
  constructor
  · intro h; rw [h] at h1; exact h1.symm.trans h2
  · intro h; exact sort_ext fun x _ _ => h.mem_iff

end WG.IndexCat
