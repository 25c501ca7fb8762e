import Verif.IndexCat.Inv
import Mathlib.Tactic.Set
/-!
# Creation and dropping keep the invariant
-/
namespace WG.IndexCat
variable {κ : Type} {V : Vt κ} {P : κ → Prop}

/-- `off` is the template for the match record `mo`. -/
def TFor (V : Vt κ) (c : Cat κ) (mo : Option (List κ)) (off : Nat) : Prop :=
  (mo = none ∧ off = 0) ∨ ∃ m, mo = some m ∧ off ∈ c.tlist ∧ Alike V (c.tm off).fields m

theorem TFor.iff (hV : VOk V P) {c : Cat κ} {L : List (Ent κ)} (h : CInv V P c L) {mo : Option (List κ)} {off : Nat}
    (hm : ∀ l, mo = some l → ∀ v ∈ l, P v) (ht : TFor V c mo off) {e : Ent κ} (he : e ∈ L) : (c.hdr e.id).tmpl = off ↔ AlikeO V e.tmpl mo := by
  rcases ht with ⟨rfl, rfl⟩ | ⟨m, rfl, h1, h2⟩
  · exact tmpl_none_iff h he
  · exact tmpl_iff hV h he h1 (hm m rfl) h2

/-- An index with the same header exists iff there is an entry that fits. -/
theorem seen_ok (hV : VOk V P) {c : Cat κ} {L : List (Ent κ)} (h : CInv V P c L) {cols : List Int} {type : Int} {mo : Option (List κ)} {off : Nat}
    (hl : Legal V cols type mo) (hm : ∀ l, mo = some l → ∀ v ∈ l, P v) (ht : TFor V c mo off) :
    seen c (if off = 0 then 0 else (c.tm off).fixed) ⟨type, sortColumns cols, off⟩ (c.table ((sortColumns cols).headD 0)) = true ↔
      ∃ e ∈ L, e.Fits V cols type mo := by
  have hcr : cols.Nodup ∧ ∀ x ∈ cols, 0 ≤ x ∧ x ≤ 127 := ⟨hl.2.2.1, hl.2.2.2.1⟩
  rw [seen_iff c _ _ _ (h.tsorted _) (fun x hx => by unfold nfix; dsimp only at hx; rw [hx])]
  constructor
  · rintro ⟨x, hx, h1, h2, h3⟩
    dsimp only at h1 h2 h3
    obtain ⟨e, he, rfl⟩ := h.ent hx
    have hh := h.hdr e he
    have hle := h.legal e he
    refine ⟨e, he, by rw [← hh.type]; exact h1, ?_, (ht.iff hV h hm he).mp h2⟩
    rw [hh.cols] at h3
    exact (sort_eq_iff ⟨hle.2.2.1, hle.2.2.2.1⟩ hcr).mp h3
  · rintro ⟨e, he, h1, h2, h3⟩
    have hh := h.hdr e he
    have hle := h.legal e he
    have hs := (sort_eq_iff ⟨hle.2.2.1, hle.2.2.2.1⟩ hcr).mpr h2
    refine ⟨e.id, (h.table _ _).mpr ⟨e, he, rfl, ?_⟩, by rw [hh.type]; exact h1, (ht.iff hV h hm he).mpr h3, by rw [hh.cols]; exact hs⟩
    have hp := sort_perm (fun h => (sort_length cols).mp h hcr)
    cases hsc : sortColumns cols with
    | nil => rw [hsc] at hp; exact absurd hp.symm.eq_nil hl.1
    | cons a t => exact h2.mem_iff.mpr (hp.mem_iff.mp (by rw [hsc]; exact List.mem_cons_self ..))

theorem sort_mem {cols : List Int} (h : ∀ x ∈ cols, 0 ≤ x ∧ x ≤ 127) (x : Int) : x ∈ sortColumns cols ↔ x ∈ cols := by
  rw [(sort_spec cols).2]
  exact ⟨fun h => h.1, fun hx => ⟨hx, h x hx⟩⟩

/-- A new index. -/
theorem link_inv (hV : VOk V P) {c : Cat κ} {L : List (Ent κ)} (h : CInv V P c L) {cols : List Int} {type : Int} {mo : Option (List κ)} {off id : Nat} {m : List κ}
    (hl : Legal V cols type mo) (hm : ∀ l, mo = some l → ∀ v ∈ l, P v) (ht : TFor V c mo off) (hmo : ∀ l, mo = some l → l = m) (hid : id ≠ 0)
    (hfr : ∀ e ∈ L, e.id ≠ id)
    (hty : type = TTREE ∨ type = HASH ∨ type = HASH_JSON) (hno : ¬∃ e ∈ L, e.Fits V cols type mo) :
    CInv V P (finish V (chain c ⟨type, sortColumns cols, off⟩ (if off = 0 then 0 else (c.tm off).fixed) id) off m id) (⟨id, type, cols, mo⟩ :: L) := by
  set c' := finish V (chain c ⟨type, sortColumns cols, off⟩ (if off = 0 then 0 else (c.tm off).fixed) id) off m id with hc'
  have hh1 : c'.hdr id = ⟨type, sortColumns cols, off⟩ := by rw [hc']; simp only [finish, chain, if_pos]
  have hh2 : ∀ e ∈ L, c'.hdr e.id = c.hdr e.id := fun e he => by rw [hc']; simp only [finish, chain]; rw [if_neg (hfr e he)]
  have htf : ∀ k, (c'.tm k).fields = (c.tm k).fields := fun k => by rw [hc']; simp only [finish, chain]; split_ifs <;> rfl
  have htx : ∀ k, (c'.tm k).fixed = (c.tm k).fixed := fun k => by rw [hc']; simp only [finish, chain]; split_ifs <;> rfl
  have htl : c'.tlist = c.tlist := rfl
  have hmc := sort_mem (cols := cols) hl.2.2.2.1
  have hoff : off = 0 ∨ off ∈ c.tlist := by
    rcases ht with ⟨_, h0⟩ | ⟨_, _, h1, _⟩
    · exact Or.inl h0
    · exact Or.inr h1
  have hcol : c.list = L.map Ent.id := h.list
  have hidn : ∀ k, id ∉ c.table k := fun k hk => by
    obtain ⟨e, he, h1⟩ := h.ent hk
    exact hfr e he h1
  have hidt : ∀ k, id ∉ c.ttable k := fun k hk => by
    obtain ⟨e, he, h1, _⟩ := (h.ttable k id).mp hk
    exact hfr e he h1
  have htab : ∀ k, c'.table k = if k ∈ cols then place c (if off = 0 then 0 else (c.tm off).fixed) id (c.table k) else c.table k := fun k => by
    rw [hc']
    simp only [finish, chain]
    by_cases hk : k ∈ cols
    · rw [if_pos hk, if_pos ((hmc k).mpr hk)]
    · rw [if_neg hk, if_neg (fun h => hk ((hmc k).mp h))]
  have hnf : ∀ e ∈ L, nfix c' e.id = nfix c e.id := fun e he => nfix_congr (hh2 e he) fun _ => htx _
  have hfixm : ∀ k, (off ≠ 0 ∧ fixedAt V m k = true) ↔ ∃ l, mo = some l ∧ fix V l k ≠ none := fun k => by
    rw [fixedAt_iff]
    constructor
    · rintro ⟨h0, h1⟩
      rcases ht with ⟨_, h2⟩ | ⟨l, h2, _⟩
      · exact absurd h2 h0
      · exact ⟨l, h2, by rw [hmo l h2]; exact h1⟩
    · rintro ⟨l, h1, h2⟩
      refine ⟨fun h0 => ?_, by rw [← hmo l h1]; exact h2⟩
      rcases ht with ⟨h3, _⟩ | ⟨_, _, h3, _⟩
      · rw [h3] at h1; cases h1
      · rw [h0] at h3; exact h.lnz h3
  have htt : ∀ k, c'.ttable k = if off ≠ 0 ∧ fixedAt V m k = true then id :: c.ttable k else c.ttable k := fun k => rfl
  exact {
    list := by rw [hc', List.map_cons, ← hcol]; rfl
    nodup := by
      rw [List.map_cons, List.nodup_cons]
      refine ⟨fun hi => ?_, h.nodup⟩
      obtain ⟨e, he, h1⟩ := List.mem_map.mp hi
      exact hfr e he h1
    nz := fun e he => by
      rcases List.mem_cons.mp he with rfl | he
      · exact hid
      · exact h.nz e he
    hdr := fun e he => by
      rcases List.mem_cons.mp he with rfl | he
      · refine ⟨by dsimp only; rw [hh1], by dsimp only; rw [hh1], fun h0 => ?_, fun l h0 => ?_⟩
        · dsimp only at h0 ⊢
          rw [hh1]
          rcases ht with ⟨_, h1⟩ | ⟨l, h1, _⟩
          · exact h1
          · rw [h1] at h0; cases h0
        · dsimp only at h0 ⊢
          rw [hh1, htl, htf]
          rcases ht with ⟨h1, _⟩ | ⟨l', h1, h2, h3⟩
          · rw [h1] at h0; cases h0
          · rw [h1] at h0; cases h0
            exact ⟨h2, h3⟩
      · have g := h.hdr e he
        refine ⟨?_, ?_, fun h0 => ?_, fun l h0 => ?_⟩
        · rw [hh2 e he]; exact g.type
        · rw [hh2 e he]; exact g.cols
        · rw [hh2 e he]; exact g.tnone h0
        · rw [hh2 e he, htl, htf]; exact g.tsome l h0
    legal := fun e he => by
      rcases List.mem_cons.mp he with rfl | he
      · exact hl
      · exact h.legal e he
    vals := fun e he => by
      rcases List.mem_cons.mp he with rfl | he
      · exact hm
      · exact h.vals e he
    types := fun e he => by
      rcases List.mem_cons.mp he with rfl | he
      · exact hty
      · exact h.types e he
    uniq := by
      refine List.Pairwise.cons (fun e he hf => hno ⟨e, he, ?_⟩) h.uniq
      refine ⟨hf.1.symm, hf.2.1.symm, ?_⟩
      have h3 := hf.2.2
      dsimp only at h3
      cases hmm : mo with
      | none =>
        rw [hmm] at h3
        cases hem : e.tmpl with
        | none => trivial
        | some l => rw [hem] at h3; exact h3.elim
      | some l' =>
        rw [hmm] at h3
        cases hem : e.tmpl with
        | none => rw [hem] at h3; exact h3.elim
        | some l =>
          rw [hem] at h3
          exact Alike.symm hV (hm l' hmm) (h.vals e he l hem) h3
    table := fun k x => by
      rw [htab]
      by_cases hk : k ∈ cols
      · rw [if_pos hk, (place_perm c _ id (c.table k)).mem_iff, List.mem_cons, h.table]
        constructor
        · rintro (rfl | ⟨e, he, h1⟩)
          · exact ⟨_, List.mem_cons_self .., rfl, hk⟩
          · exact ⟨e, List.mem_cons_of_mem _ he, h1⟩
        · rintro ⟨e, he, h1, h2⟩
          rcases List.mem_cons.mp he with rfl | he
          · exact Or.inl h1.symm
          · exact Or.inr ⟨e, he, h1, h2⟩
      · rw [if_neg hk, h.table]
        constructor
        · rintro ⟨e, he, h1⟩
          exact ⟨e, List.mem_cons_of_mem _ he, h1⟩
        · rintro ⟨e, he, h1, h2⟩
          rcases List.mem_cons.mp he with rfl | he
          · exact absurd h2 hk
          · exact ⟨e, he, h1, h2⟩
    tnodup := fun k => by
      rw [htab]
      by_cases hk : k ∈ cols
      · rw [if_pos hk, (place_perm c _ id (c.table k)).nodup_iff, List.nodup_cons]
        exact ⟨hidn k, h.tnodup k⟩
      · rw [if_neg hk]; exact h.tnodup k
    tsorted := fun k => by
      have hx : ∀ x ∈ c.table k, nfix c' x = nfix c x := fun x hx => by
        obtain ⟨e, he, rfl⟩ := h.ent hx
        exact hnf e he
      rw [htab]
      by_cases hk : k ∈ cols
      · rw [if_pos hk]
        refine place_sorted c (nfix c') _ id ?_ _ hx (h.tsorted k)
        unfold nfix
        rw [hh1, htx]
      · rw [if_neg hk]
        refine List.Pairwise.imp_of_mem (fun {x y} hxm hym hxy => ?_) (h.tsorted k)
        rw [hx x hxm, hx y hym]; exact hxy
    ttable := fun k x => by
      rw [htt]
      by_cases hk : off ≠ 0 ∧ fixedAt V m k = true
      · rw [if_pos hk, List.mem_cons, h.ttable]
        constructor
        · rintro (rfl | ⟨e, he, h1⟩)
          · exact ⟨_, List.mem_cons_self .., rfl, (hfixm k).mp hk⟩
          · exact ⟨e, List.mem_cons_of_mem _ he, h1⟩
        · rintro ⟨e, he, h1, h2⟩
          rcases List.mem_cons.mp he with rfl | he
          · exact Or.inl h1.symm
          · exact Or.inr ⟨e, he, h1, h2⟩
      · rw [if_neg hk, h.ttable]
        constructor
        · rintro ⟨e, he, h1⟩
          exact ⟨e, List.mem_cons_of_mem _ he, h1⟩
        · rintro ⟨e, he, h1, h2⟩
          rcases List.mem_cons.mp he with rfl | he
          · exact absurd ((hfixm k).mpr h2) hk
          · exact ⟨e, he, h1, h2⟩
    ttnodup := fun k => by
      rw [htt]
      split_ifs
      · exact List.nodup_cons.mpr ⟨hidt k, h.ttnodup k⟩
      · exact h.ttnodup k
    lnodup := h.lnodup
    lnz := h.lnz
    lsorted := by
      refine List.Pairwise.imp (fun {x y} hxy => ?_) h.lsorted
      rw [htx, htx]; exact hxy
    tms := fun t htm => by
      have g := h.tms t htm
      exact ⟨by rw [htx, htf]; exact g.fixed, by rw [htf]; exact g.ends, by rw [htf]; exact g.vals, by rw [htf]; exact g.recs⟩
    refs := fun t htm => by
      have g := h.refs t htm
      have hu : users c' (⟨id, type, cols, mo⟩ :: L) t = users c L t + if off = t then 1 else 0 := by
        unfold users
        rw [List.countP_cons]
        dsimp only
        rw [hh1]
        congr 1
        · exact List.countP_congr fun e he => by rw [hh2 e he]
        · simp only [decide_eq_true_eq]
      have hr : (c'.tm t).refs = (c.tm t).refs + if off = t then 1 else 0 := by
        rw [hc']
        simp only [finish, chain]
        by_cases h1 : off = t
        · have : off ≠ 0 := fun h0 => h.lnz (by rw [← h0, h1]; exact htm)
          rw [if_pos ⟨this, h1.symm⟩, if_pos h1]
        · rw [if_neg (fun h => h1 h.2.symm), if_neg h1, Int.add_zero]
      rw [hu, hr, g]
      split_ifs <;> simp
    apart := fun t htm t' htm' ha => by
      rw [htf, htf] at ha
      exact h.apart t htm t' htm' ha
    count := by
      change c.count + 1 = _
      rw [h.count, List.length_cons]
      simp }

end WG.IndexCat
