import Verif.Query.Fetch
import Mathlib.Data.List.Perm.Subperm
import Mathlib.Data.List.Nodup
/-!
# The rows of a query before prefetching
-/
namespace WG.Query
open WG.TTree
variable {κ : Type}

theorem wanted_iff {db : DB κ} {P : κ → Prop} (hw : WF db P) {mr : Option (List κ)} {al : Option (List (Arg κ))} (hv : ∀ v, QueryValue db mr al v → P v) (r : Nat) :
    Wanted db mr al r ↔ r ∈ db.recs ∧ ∀ a ∈ al.getD [] ++ matchArgs db (mr.getD []) 0, Sat db r a := by
  unfold Wanted
  refine and_congr_right fun hr => ?_
  rw [List.forall_mem_append]
  refine and_congr ?_ ?_
  · cases al <;> simp
  · cases mr with
    | none => simp [matchArgs]
    | some m =>
      simp only [Option.some.injEq, forall_eq', Option.getD_some]
      have hsw : ∀ i v, m[i]? = some v → db.isVar v = false → i < db.len r → (db.cmp v (db.fld r i) = .eq ↔ db.cmp (db.fld r i) v = .eq) := by
        intro i v h1 h2 h3
        have := (hw.ord 0).swap (hv v (.inr ⟨m, rfl, List.mem_of_getElem? h1, h2⟩)) (hw.vals r hr i h3)
        simp only [DB.env] at this
        rw [this]
        cases db.cmp v (db.fld r i) <;> simp
      constructor
      · intro h a ha
        obtain ⟨j, v, h1, h2, rfl⟩ := mem_matchArgs.1 ha
        obtain ⟨h3, h4⟩ := h j v h1 h2
        rw [Nat.zero_add]
        exact ⟨h3, (hsw j v h1 h2 h3).1 h4⟩
      · intro h i v h1 h2
        obtain ⟨h3, h4⟩ := h ⟨0 + i, .equal, v⟩ (mem_matchArgs.2 ⟨i, v, h1, h2, rfl⟩)
        rw [Nat.zero_add] at h3 h4
        exact ⟨h3, (hsw i v h1 h2 h3).2 h4⟩

section
variable [DecidableEq κ] {db : DB κ} {P : κ → Prop}

theorem below_iff {c : Nat} {b : κ} {i : Bool} {r : Nat} : ¬ Below (db.env c) b i r ↔ LowOk db b i (db.fld r c) := by
  unfold Below LowOk
  simp only [DB.env]
  cases i <;> simp

theorem within_iff {c : Nat} {b : κ} {i : Bool} {r : Nat} : Within (db.env c) b i r ↔ HighOk db b i (db.fld r c) := by
  unfold Within HighOk
  simp only [DB.env]
  by_cases h : b = db.ill <;> simp [h]

/-- The conditions on the column of the index, for a row in the index. -/
theorem sat_col {c : Nat} {args : List (Arg κ)} {b : Bnds κ} (hb : BndsOk db P c args b) {r : Nat} (hp : P (db.fld r c)) (hlen : c < db.len r) (hall : b.all = false) :
    (LowOk db b.sb b.si (db.fld r c) ∧ HighOk db b.eb b.ei (db.fld r c)) ↔ ∀ a ∈ args, a.col = c → Sat db r a := by
  have h1 := hb.lo _ hp
  have h2 := hb.hi _ hp
  unfold LowOk HighOk
  rw [h1, h2]
  have hne : ∀ a ∈ args, a.col = c → a.cond ≠ .notEqual := by
    intro a ha hc he
    have := hb.all.2 ⟨a, ha, hc, he⟩
    rw [hall] at this
    cases this
  constructor
  · rintro ⟨ha, hb⟩ a hm hc
    obtain ⟨a1, a2⟩ := ha a hm hc
    obtain ⟨b1, b2⟩ := hb a hm hc
    have := hne a hm hc
    refine ⟨by omega, ?_⟩
    rw [hc]
    cases hcd : a.cond <;> simp only [hcd] at * <;> simp at *
    · cases hh : db.cmp (db.fld r c) a.value <;> simp_all
    · exact b2
    · exact a2
    · exact b1
    · exact a1
  · intro h
    constructor
    · intro a hm hc
      obtain ⟨_, h⟩ := h a hm hc
      rw [hc] at h
      cases hcd : a.cond <;> simp only [hcd] at h <;> simp [h]
    · intro a hm hc
      obtain ⟨_, h⟩ := h a hm hc
      rw [hc] at h
      cases hcd : a.cond <;> simp only [hcd] at h <;> simp [h]

/-- In all cases the conditions imply the bounds. -/
theorem bounds_of_sat {c : Nat} {args : List (Arg κ)} {b : Bnds κ} (hb : BndsOk db P c args b) {r : Nat} (hp : P (db.fld r c)) (h : ∀ a ∈ args, a.col = c → Sat db r a) :
    LowOk db b.sb b.si (db.fld r c) ∧ HighOk db b.eb b.ei (db.fld r c) := by
  unfold LowOk HighOk
  rw [hb.lo _ hp, hb.hi _ hp]
  constructor
  · intro a hm hc
    obtain ⟨_, h⟩ := h a hm hc
    rw [hc] at h
    cases hcd : a.cond <;> simp only [hcd] at h <;> simp [h]
  · intro a hm hc
    obtain ⟨_, h⟩ := h a hm hc
    rw [hc] at h
    cases hcd : a.cond <;> simp only [hcd] at h <;> simp [h]

theorem eq_via (O : Ord (db.env 0) P) {a b c : κ} (ha : P a) (hb : P b) (hc : P c) (h1 : db.cmp a b = .eq) (h2 : db.cmp c b = .eq) : db.cmp a c = .eq := by
  obtain ⟨le, f, t⟩ := facts O ha hb hc
  have f1 := f _ _ ha hb
  have f2 := f _ _ hc hb
  have f3 := f _ _ ha hc
  rw [h1] at f1
  rw [h2] at f2
  clear f
  cases hcc : db.cmp a c
  · rw [hcc] at f3; simp at f1 f2 f3; grind
  · rfl
  · rw [hcc] at f3; simp at f1 f2 f3; grind

theorem no_between (O : Ord (db.env 0) P) {x s e : κ} {si ei : Bool} (hx : P x) (hs : P s) (he : P e) (h : db.cmp s e = .gt)
    (h1 : if si then db.cmp x s ≠ .lt else db.cmp x s = .gt) (h2 : if ei then db.cmp x e ≠ .gt else db.cmp x e = .lt) : False := by
  obtain ⟨le, f, t⟩ := facts O hx hs he
  have f1 := f _ _ hx hs
  have f2 := f _ _ hx he
  have f3 := f _ _ hs he
  rw [h] at f3
  clear f
  cases si <;> cases ei <;> simp only [Bool.false_eq_true, if_false, if_true, ne_eq, f1, f2] at h1 h2 <;> simp at f3 <;> grind

theorem below_within (O : Ord (db.env 0) P) {x s e : κ} {si ei : Bool} (hx : P x) (hs : P s) (he : P e) (h : db.cmp s e ≠ .gt)
    (hn : si = false → ei = false → db.cmp s e ≠ .eq) (hb : if si then db.cmp x s = .lt else db.cmp x s ≠ .gt) : if ei then db.cmp x e ≠ .gt else db.cmp x e = .lt := by
  obtain ⟨le, f, t⟩ := facts O hx hs he
  have f1 := f _ _ hx hs
  have f2 := f _ _ hx he
  have f3 := f _ _ hs he
  clear f
  cases si <;> cases ei <;> simp only [Bool.false_eq_true, if_false, if_true] at hb hn ⊢
  · have : db.cmp s e = .lt := by
      have := hn trivial trivial
      cases h' : db.cmp s e <;> simp_all
    rw [f2.1]; rw [ne_eq, f1.2] at hb; rw [f3.1] at this; grind
  · rw [ne_eq, f2.2]; rw [ne_eq, f1.2] at hb; rw [ne_eq, f3.2] at h; grind
  · rw [f2.1]; rw [f1.1] at hb; rw [ne_eq, f3.2] at h; grind
  · rw [ne_eq, f2.2]; rw [f1.1] at hb; rw [ne_eq, f3.2] at h; grind

/-- No `col > v` together with `col < w` for equal values and an indexed column. -/
def NoGap (db : DB κ) (args : List (Arg κ)) : Prop :=
  ∀ a ∈ args, ∀ b ∈ args, a.cond = .greater → b.cond = .lessThan → a.col = b.col → (∃ ix ∈ db.idx a.col, ix.ttree = true) → db.cmp a.value b.value ≠ .eq

theorem plain_res (hw : WF db P) {mr : Option (List κ)} {al : Option (List (Arg κ))} {args : List (Arg κ)} (hpp : prepareParams db mr al = some args)
    (hv : ∀ a ∈ args, P a.value) (hgap : NoGap db args) {k : Nat} (hk : fuel db.recs.length ≤ k) :
    ∃ q early rows, buildPlain db k mr al = some (q, early) ∧ Fetches db k q rows ∧ rows.Nodup ∧ q.resCount = none ∧ rows.length < k ∧ (early = true → rows = []) ∧
      ∀ r, r ∈ rows ↔ r ∈ db.recs ∧ ∀ a ∈ args, Sat db r a := by
  classical
  unfold buildPlain
  rw [hpp]
  simp only []
  have hkr : db.recs.length < k := by unfold fuel at hk; omega
  cases hmr : mostRestricting db args with
  | none =>
    simp only []
    refine ⟨_, _, _, rfl, fetches_scan (A := []) hw.nodup hw.nz hkr db.recs.length (Nat.le_refl _) rfl rfl rfl, hw.nodup.filter _, rfl, ?_, by simp, fun r => ?_⟩
    · exact Nat.lt_of_le_of_lt (List.length_filter_le _ _) hkr
    · rw [List.mem_filter, check_iff]
  | some x =>
    obtain ⟨c, st⟩ := x
    simp only []
    obtain ⟨⟨a0, ha0, hc0⟩, ix, hix, htt, rfl, htm⟩ := mostRestricting_res hmr
    obtain ⟨l, hh, hnd, hl⟩ := hw.index c ix hix htt
    obtain ⟨O, l', hi, hpm⟩ := hist_index hh
    have hl' : ∀ r, r ∈ l' ↔ r ∈ db.recs ∧ c < db.len r ∧ ∀ m, ix.tmpl = some m → Matches db m r := fun r => by rw [hpm.mem_iff, hl]
    have hlen : l'.length ≤ db.recs.length := by
      exact ((List.subperm_of_subset (hpm.nodup_iff.2 hnd) fun r hr => ((hl' r).1 hr).1)).length_le
    have O0 := hw.ord 0
    have hb := bounds_ok O0 c args hv
    generalize bounds db c args = b at hb
    have hin : ∀ r, r ∈ db.recs → (∀ a ∈ args, Sat db r a) → r ∈ l' := by
      intro r hr hs
      rw [hl']
      have h0 := hs a0 ha0
      refine ⟨hr, by rw [← hc0]; exact h0.1, fun m hm j v hj hvar => ?_⟩
      obtain ⟨a, ha, e1, e2, e3⟩ := htm m hm j v hj hvar
      obtain ⟨s1, s2⟩ := hs a ha
      rw [e2, e1] at s2
      rw [e1] at s1
      simp only at s2
      have pv := hw.tmpl c ix hix m hm v (List.mem_of_getElem? hj) hvar
      have pr := hw.vals r hr j s1
      have pa := hv a ha
      refine ⟨s1, ?_⟩
      exact eq_via O0 pv pa pr e3 s2
    have hpl : ∀ r ∈ l', P (db.fld r c) := fun r hr => hw.vals r ((hl' r).1 hr).1 c ((hl' r).1 hr).2.1
    by_cases hgt : b.sb ≠ db.ill ∧ b.eb ≠ db.ill ∧ db.cmp b.sb b.eb = .gt
    · rw [if_pos hgt]
      refine ⟨_, _, [], rfl, .done ?_, .nil, rfl, by simp; omega, fun _ => rfl, fun r => ?_⟩
      · obtain ⟨k, rfl⟩ : ∃ j, k = j + 1 := ⟨k - 1, by omega⟩
        simp [fetch, ttreeFetch]
      · simp only [List.not_mem_nil, false_iff, not_and]
        intro hr hs
        have hm := hin r hr hs
        have hp := hpl r hm
        obtain ⟨h1, h2⟩ := bounds_of_sat hb hp (fun a ha _ => hs a ha)
        obtain ⟨g1, g2, g3⟩ := hgt
        exact no_between O0 hp (hb.sp.resolve_left g1) (hb.ep.resolve_left g2) g3 (h1 g1) (h2 g2)
    · rw [if_neg hgt]
      have hle : ∀ x ∈ l', Below (db.env c) b.sb b.si x → Within (db.env c) b.eb b.ei x := by
        intro x hx hbl
        rw [within_iff]
        intro g2
        have g1 : b.sb ≠ db.ill := hbl.1
        have hp := hpl x hx
        have hng : db.cmp b.sb b.eb ≠ .gt := fun h => hgt ⟨g1, g2, h⟩
        have hb2 := hbl.2
        simp only [DB.env] at hb2
        have hneq : b.si = false → b.ei = false → db.cmp b.sb b.eb ≠ .eq := by
          intro e1 e2
          obtain ⟨a1, m1, c1, d1, v1⟩ := hb.sx g1 e1
          obtain ⟨a2, m2, c2, d2, v2⟩ := hb.ex g2 e2
          rw [← v1, ← v2]
          exact hgap a1 m1 a2 m2 d1 d2 (by rw [c1, c2]) ⟨ix, by rw [c1]; exact hix, htt⟩
        exact below_within O0 hp (hb.sp.resolve_left g1) (hb.ep.resolve_left g2) hng hneq hb2
      obtain ⟨rg, hfb, hrr⟩ := findBounds_res O hi (i1 := b.si) (i2 := b.ei) hb.sp hb.ep (k := k) (by unfold fuel at hk ⊢; omega) hle
      rw [hfb]
      simp only []
      have hrl : (rangeRows ix.st k rg).length < k := by
        rw [hrr]
        exact Nat.lt_of_le_of_lt (List.length_filter_le _ _) (by omega)
      have hends := ends_range ix.st k rg hrl
      have hmem : ∀ r, r ∈ rangeRows ix.st k rg ↔ r ∈ l' ∧ LowOk db b.sb b.si (db.fld r c) ∧ HighOk db b.eb b.ei (db.fld r c) := by
        intro r
        rw [hrr, List.mem_filter, Bool.and_eq_true, decide_eq_true_iff, decide_eq_true_iff, below_iff, within_iff]
      have hnz : 0 ∉ rangeRows ix.st k rg := fun h => hw.nz ((hl' 0).1 ((hmem 0).1 h).1).1
      refine ⟨_, _, _, rfl, fetches_tree (rangeRows ix.st k rg).length (Nat.le_refl _) rfl hends hrl hnz, ?_, rfl, ?_, by simp, fun r => ?_⟩
      · refine List.Nodup.filter _ ?_
        rw [hrr]
        exact (hpm.nodup_iff.2 hnd).filter _
      · exact Nat.lt_of_le_of_lt (List.length_filter_le _ _) hrl
      · rw [List.mem_filter, check_iff, hmem]
        constructor
        · rintro ⟨⟨hm, h1⟩, h2⟩
          have hp := hpl r hm
          refine ⟨((hl' r).1 hm).1, fun a ha => ?_⟩
          by_cases hall : b.all = true
          · simp only [hall, if_true] at h2
            exact h2 a ha
          · simp only [hall, if_false] at h2
            by_cases hc : a.col = c
            · exact (sat_col hb hp ((hl' r).1 hm).2.1 (by simpa using hall)).1 h1 a ha hc
            · exact h2 a (by simp [ha, hc])
        · rintro ⟨hr, hs⟩
          have hm := hin r hr hs
          refine ⟨⟨hm, bounds_of_sat hb (hpl r hm) (fun a ha _ => hs a ha)⟩, ?_⟩
          split_ifs
          · exact hs
          · exact fun a ha => hs a (List.mem_filter.1 ha).1

end

end WG.Query
