import Verif.IndexCat.Tmpl
/-!
# The invariant of the catalogue
-/
namespace WG.IndexCat
variable {κ : Type} {V : Vt κ} {P : κ → Prop}

/-- Number of fixed columns of an index. -/
def nfix (c : Cat κ) (x : Nat) : Nat := if (c.hdr x).tmpl = 0 then 0 else (c.tm (c.hdr x).tmpl).fixed

/-- The header of an entry. -/
structure HOk (V : Vt κ) (c : Cat κ) (e : Ent κ) : Prop where
  type : (c.hdr e.id).type = e.type
  cols : (c.hdr e.id).cols = sortColumns e.cols
  tnone : e.tmpl = none → (c.hdr e.id).tmpl = 0
  tsome : ∀ l, e.tmpl = some l → (c.hdr e.id).tmpl ∈ c.tlist ∧ Alike V (c.tm (c.hdr e.id).tmpl).fields l

/-- A template. -/
structure TOk (V : Vt κ) (P : κ → Prop) (t : Tm κ) : Prop where
  fixed : t.fixed = fixedCount V t.fields
  ends : Ends V t.fields
  vals : ∀ v ∈ t.fields, P v
  recs : t.fields.any V.isRec = false

/-- Indexes that use a template. -/
def users (c : Cat κ) (L : List (Ent κ)) (t : Nat) : Nat := L.countP fun e => decide ((c.hdr e.id).tmpl = t)

structure CInv (V : Vt κ) (P : κ → Prop) (c : Cat κ) (L : List (Ent κ)) : Prop where
  list : c.list = L.map Ent.id
  nodup : (L.map Ent.id).Nodup
  nz : ∀ e ∈ L, e.id ≠ 0
  hdr : ∀ e ∈ L, HOk V c e
  legal : ∀ e ∈ L, Legal V e.cols e.type e.tmpl
  vals : ∀ e ∈ L, ∀ l, e.tmpl = some l → ∀ v ∈ l, P v
  types : ∀ e ∈ L, e.type = TTREE ∨ e.type = HASH ∨ e.type = HASH_JSON
  uniq : L.Pairwise fun e e' => ¬e.Fits V e'.cols e'.type e'.tmpl
  table : ∀ k x, x ∈ c.table k ↔ ∃ e ∈ L, e.id = x ∧ k ∈ e.cols
  tnodup : ∀ k, (c.table k).Nodup
  tsorted : ∀ k, (c.table k).Pairwise fun x y => nfix c y ≤ nfix c x
  ttable : ∀ k x, x ∈ c.ttable k ↔ ∃ e ∈ L, e.id = x ∧ ∃ l, e.tmpl = some l ∧ fix V l k ≠ none
  ttnodup : ∀ k, (c.ttable k).Nodup
  lnodup : c.tlist.Nodup
  lnz : 0 ∉ c.tlist
  lsorted : TSorted c.tm c.tlist
  tms : ∀ t ∈ c.tlist, TOk V P (c.tm t)
  refs : ∀ t ∈ c.tlist, (c.tm t).refs = users c L t
  apart : ∀ t ∈ c.tlist, ∀ t' ∈ c.tlist, Alike V (c.tm t).fields (c.tm t').fields → t = t'
  count : c.count = L.length

/-- Every template is used. -/
def Used (c : Cat κ) (L : List (Ent κ)) : Prop := ∀ t ∈ c.tlist, ∃ e ∈ L, (c.hdr e.id).tmpl = t

theorem CInv.init (tm : Nat → Tm κ) : CInv V P (Cat.empty tm) [] where
  list := rfl
  nodup := List.nodup_nil
  nz := fun _ h => by cases h
  hdr := fun _ h => by cases h
  legal := fun _ h => by cases h
  vals := fun _ h => by cases h
  types := fun _ h => by cases h
  uniq := List.Pairwise.nil
  table := fun k x => by simp [Cat.empty]
  tnodup := fun k => List.nodup_nil
  tsorted := fun k => List.Pairwise.nil
  ttable := fun k x => by simp [Cat.empty]
  ttnodup := fun k => List.nodup_nil
  lnodup := List.nodup_nil
  lnz := fun h => by cases h
  lsorted := List.Pairwise.nil
  tms := fun _ h => by cases h
  refs := fun _ h => by cases h
  apart := fun _ h => by cases h
  count := rfl

/-! ## Chains -/

theorem stops_iff {c : Cat κ} {n x : Nat} : stops c n x = true ↔ nfix c x < n := by
  unfold stops nfix
  by_cases h : (c.hdr x).tmpl = 0
  · rw [if_neg (by simpa using h), if_pos h, decide_eq_true_eq]; omega
  · rw [if_pos h, if_neg h, decide_eq_true_eq]

theorem place_perm (c : Cat κ) (n new : Nat) : ∀ (l : List Nat), (place c n new l).Perm (new :: l)
  | [] => List.Perm.refl _
  | x :: t => by
    rw [place]
    split_ifs
    · exact List.Perm.refl _
    · exact ((place_perm c n new t).cons x).trans (List.Perm.swap ..)

theorem place_sorted (c : Cat κ) (f : Nat → Nat) (n new : Nat) (hn : f new = n) : ∀ (l : List Nat), (∀ x ∈ l, f x = nfix c x) →
    l.Pairwise (fun x y => nfix c y ≤ nfix c x) → (place c n new l).Pairwise fun x y => f y ≤ f x
  | [], _, _ => List.pairwise_singleton ..
  | x :: t, hf, hs => by
    obtain ⟨hs1, hs2⟩ := List.pairwise_cons.mp hs
    have hs' : (x :: t).Pairwise fun x y => f y ≤ f x := by
      refine List.Pairwise.imp_of_mem (fun ha hb h => ?_) hs
      rw [hf _ ha, hf _ hb]; exact h
    have hx := hf x (List.mem_cons_self ..)
    rw [place]
    by_cases h : stops c n x = true
    · rw [if_pos h]
      rw [stops_iff] at h
      refine List.Pairwise.cons (fun y hy => ?_) hs'
      rcases List.mem_cons.mp hy with rfl | hy'
      · omega
      · have := hs1 y hy'; have := hf y hy; omega
    · rw [if_neg h]
      rw [stops_iff] at h
      refine List.Pairwise.cons (fun y hy => ?_) (place_sorted c f n new hn t (fun y hy => hf y (List.mem_cons_of_mem _ hy)) hs2)
      rcases List.mem_cons.mp ((place_perm c n new t).mem_iff.mp hy) with rfl | hy
      · omega
      · have := hs1 y hy; have := hf y (List.mem_cons_of_mem _ hy); omega

theorem seen_iff (c : Cat κ) (n : Nat) (new : Hdr) : ∀ (l : List Nat), l.Pairwise (fun x y => nfix c y ≤ nfix c x) →
    (∀ x, (c.hdr x).tmpl = new.tmpl → nfix c x = n) →
    (seen c n new l = true ↔ ∃ x ∈ l, (c.hdr x).type = new.type ∧ (c.hdr x).tmpl = new.tmpl ∧ (c.hdr x).cols = new.cols)
  | [], _, _ => by simp [seen]
  | x :: t, hs, hn => by
    obtain ⟨hs1, hs2⟩ := List.pairwise_cons.mp hs
    rw [seen]
    by_cases h : (c.hdr x).type = new.type ∧ (c.hdr x).tmpl = new.tmpl ∧ (c.hdr x).cols = new.cols
    · rw [if_pos h]
      exact ⟨fun _ => ⟨x, List.mem_cons_self .., h⟩, fun _ => rfl⟩
    · rw [if_neg h]
      by_cases h2 : stops c n x = true
      · rw [if_pos h2]
        rw [stops_iff] at h2
        refine ⟨fun h => (by cases h), ?_⟩
        rintro ⟨y, hy, hy2⟩
        have := hn y hy2.2.1
        rcases List.mem_cons.mp hy with rfl | hy
        · omega
        · have := hs1 y hy; omega
      · rw [if_neg h2, seen_iff c n new t hs2 hn]
        constructor
        · rintro ⟨y, hy, hy2⟩; exact ⟨y, List.mem_cons_of_mem _ hy, hy2⟩
        · rintro ⟨y, hy, hy2⟩
          rcases List.mem_cons.mp hy with rfl | hy
          · exact absurd hy2 h
          · exact ⟨y, hy, hy2⟩

/-! ## Templates and entries -/

theorem zero_iff {c : Cat κ} {L : List (Ent κ)} (h : CInv V P c L) {e : Ent κ} (he : e ∈ L) : (c.hdr e.id).tmpl = 0 ↔ e.tmpl = none := by
  constructor
  · intro h0
    cases ht : e.tmpl with
    | none => rfl
    | some l =>
      have := ((h.hdr e he).tsome l ht).1
      rw [h0] at this
      exact absurd this h.lnz
  · exact (h.hdr e he).tnone

/-- The template of an entry is `t` iff the match records are alike. -/
theorem tmpl_iff (hV : VOk V P) {c : Cat κ} {L : List (Ent κ)} (h : CInv V P c L) {e : Ent κ} (he : e ∈ L) {t : Nat} (ht : t ∈ c.tlist) {m : List κ}
    (hm : ∀ v ∈ m, P v) (ha : Alike V (c.tm t).fields m) : (c.hdr e.id).tmpl = t ↔ AlikeO V e.tmpl (some m) := by
  have hft := (h.tms t ht).vals
  constructor
  · intro h0
    cases hl : e.tmpl with
    | none =>
      have := (h.hdr e he).tnone hl
      rw [h0] at this
      rw [this] at ht
      exact absurd ht h.lnz
    | some l =>
      have hal := ((h.hdr e he).tsome l hl).2
      rw [h0] at hal
      exact (hal.symm hV hft (h.vals e he l hl)).trans hV (h.vals e he l hl) hft hm ha
  · intro h0
    cases hl : e.tmpl with
    | none => rw [hl] at h0; exact h0.elim
    | some l =>
      rw [hl] at h0
      obtain ⟨h1, h2⟩ := (h.hdr e he).tsome l hl
      have hf1 := (h.tms _ h1).vals
      have hle := h.vals e he l hl
      exact h.apart _ h1 _ ht ((h2.trans hV hf1 hle hm h0).trans hV hf1 hm hft (ha.symm hV hft hm))

theorem tmpl_none_iff {c : Cat κ} {L : List (Ent κ)} (h : CInv V P c L) {e : Ent κ} (he : e ∈ L) :
    (c.hdr e.id).tmpl = 0 ↔ AlikeO V e.tmpl none := by
  rw [zero_iff h he]
  cases e.tmpl with
  | none => exact ⟨fun _ => trivial, fun _ => rfl⟩
  | some l => exact ⟨(fun h => by cases h), fun h => h.elim⟩

/-- The result of a search for a template. -/
theorem findT_ok (hV : VOk V P) {c : Cat κ} {L : List (Ent κ)} (h : CInv V P c L) {m : List κ} (hm : ∀ v ∈ m, P v) (hc : fixedCount V m ≠ 0) :
    (findT V c.tm (trim V m) (fixedCount V m) c.tlist ≠ 0 → findT V c.tm (trim V m) (fixedCount V m) c.tlist ∈ c.tlist ∧
      Alike V (c.tm (findT V c.tm (trim V m) (fixedCount V m) c.tlist)).fields m) ∧
    (findT V c.tm (trim V m) (fixedCount V m) c.tlist = 0 → ∀ t ∈ c.tlist, ¬Alike V (c.tm t).fields m) := by
  constructor
  · intro h0
    obtain ⟨h1, h2, h3⟩ := findT_mem (V := V) c.tm (trim V m) (fixedCount V m) c.tlist h0
    have ht := h.tms _ h1
    exact ⟨h1, (tmpl_test hV hm ht.vals hc ht.ends).mp ⟨by rw [← ht.fixed]; exact h2, h3⟩⟩
  · intro h0 t ht ha
    have hto := h.tms t ht
    refine findT_none (V := V) c.tm (trim V m) (fixedCount V m) c.tlist h.lsorted h.lnz h0 t ht ?_
    rw [hto.fixed]
    exact (tmpl_test hV hm hto.vals hc hto.ends).mpr ha

theorem nfix_congr {c c' : Cat κ} {x : Nat} (h1 : c'.hdr x = c.hdr x) (h2 : (c.hdr x).tmpl ≠ 0 → (c'.tm (c.hdr x).tmpl).fixed = (c.tm (c.hdr x).tmpl).fixed) :
    nfix c' x = nfix c x := by
  unfold nfix
  rw [h1]
  by_cases h : (c.hdr x).tmpl = 0
  · rw [if_pos h, if_pos h]
  · rw [if_neg h, if_neg h, h2 h]

theorem CInv.ent {c : Cat κ} {L : List (Ent κ)} (h : CInv V P c L) {k : Int} {x : Nat} (hx : x ∈ c.table k) : ∃ e ∈ L, e.id = x := by
  obtain ⟨e, he, h1, _⟩ := (h.table k x).mp hx
  exact ⟨e, he, h1⟩

theorem CInv.tmem {c : Cat κ} {L : List (Ent κ)} (h : CInv V P c L) {e : Ent κ} (he : e ∈ L) (h0 : (c.hdr e.id).tmpl ≠ 0) : (c.hdr e.id).tmpl ∈ c.tlist := by
  cases hl : e.tmpl with
  | none => exact absurd ((h.hdr e he).tnone hl) h0
  | some l => exact ((h.hdr e he).tsome l hl).1

/-- Adding a template that does not exist. -/
theorem addT_inv (hV : VOk V P) {c : Cat κ} {L : List (Ent κ)} (h : CInv V P c L) {m : List κ} (hm : ∀ v ∈ m, P v) (hr : m.any V.isRec = false)
    (hc : fixedCount V m ≠ 0) {new : Nat} (hnz : new ≠ 0) (hnew : new ∉ c.tlist) (href : (c.tm new).refs = 0)
    (hno : ∀ t ∈ c.tlist, ¬Alike V (c.tm t).fields m) :
    CInv V P (newTemplate V c m new) L ∧ Alike V (trim V m) m ∧ ∀ e ∈ L, (c.hdr e.id).tmpl ≠ new := by
  obtain ⟨h1, h2, h3⟩ := trim_spec (V := V) m.length m rfl
  have hmt : ∀ v ∈ trim V m, P v := fun v hv => hm v (h3 v hv)
  have hat : Alike V (trim V m) m := Alike.of_fix hV hm h1
  have hne : ∀ t ∈ c.tlist, t ≠ new := fun t ht e => hnew (e ▸ ht)
  have hmem : ∀ t, t ∈ placeT c.tm (fixedCount V m) new c.tlist ↔ t = new ∨ t ∈ c.tlist := fun t => by
    rw [(placeT_perm c.tm (fixedCount V m) new c.tlist).mem_iff, List.mem_cons]
  have hent : ∀ e ∈ L, (c.hdr e.id).tmpl ≠ new := fun e he h0 => by
    by_cases hz : (c.hdr e.id).tmpl = 0
    · omega
    · exact hne _ (h.tmem he hz) h0
  refine ⟨?_, hat, hent⟩
  exact {
    list := h.list
    nodup := h.nodup
    nz := h.nz
    hdr := fun e he => by
      have g := h.hdr e he
      refine ⟨g.type, g.cols, g.tnone, fun l hl => ?_⟩
      obtain ⟨g1, g2⟩ := g.tsome l hl
      refine ⟨(hmem _).mpr (Or.inr g1), ?_⟩
      dsimp only [newTemplate]
      rw [if_neg (hne _ g1)]
      exact g2
    legal := h.legal
    vals := h.vals
    types := h.types
    uniq := h.uniq
    table := h.table
    tnodup := h.tnodup
    tsorted := fun k => by
      refine List.Pairwise.imp_of_mem (fun {x y} hx hy hxy => ?_) (h.tsorted k)
      have hk : ∀ x ∈ c.table k, nfix (newTemplate V c m new) x = nfix c x := fun x hx => by
        obtain ⟨e, he, rfl⟩ := h.ent hx
        refine nfix_congr rfl fun _ => ?_
        dsimp only [newTemplate]
        rw [if_neg (hent e he)]
      rw [hk x hx, hk y hy]
      exact hxy
    ttable := h.ttable
    ttnodup := h.ttnodup
    lnodup := (placeT_perm c.tm (fixedCount V m) new c.tlist).nodup_iff.mpr (List.nodup_cons.mpr ⟨hnew, h.lnodup⟩)
    lnz := fun h0 => by
      rcases (hmem 0).mp h0 with h0 | h0
      · exact hnz h0.symm
      · exact h.lnz h0
    lsorted := by
      have hcg := placeT_congr (tm := c.tm) (tm' := fun k => if k = new then { fields := trim V m, fixed := fixedCount V m, refs := (c.tm new).refs } else c.tm k)
        (fixedCount V m) new c.tlist (fun x hx => by rw [if_neg (hne x hx)])
      dsimp only [newTemplate]
      rw [hcg]
      refine placeT_sorted _ _ _ (by rw [if_pos rfl]) _ ?_
      refine List.Pairwise.imp_of_mem (fun {x y} hx hy hxy => ?_) h.lsorted
      dsimp only
      rw [if_neg (hne x hx), if_neg (hne y hy)]
      exact hxy
    tms := fun t ht => by
      dsimp only [newTemplate]
      rcases (hmem t).mp ht with rfl | ht
      · rw [if_pos rfl]
        refine ⟨(alike_count hat).symm, trim_ends hc, hmt, ?_⟩
        rw [Bool.eq_false_iff]
        intro ha
        obtain ⟨v, hv, hvr⟩ := List.any_eq_true.mp ha
        rw [List.any_eq_false] at hr
        exact hr v (h3 v hv) hvr
      · rw [if_neg (hne t ht)]
        exact h.tms t ht
    refs := fun t ht => by
      dsimp only [newTemplate]
      rcases (hmem t).mp ht with rfl | ht
      · rw [if_pos rfl]
        dsimp only
        rw [href]
        have : users c L t = 0 := by
          unfold users
          rw [List.countP_eq_zero]
          intro e he
          rw [decide_eq_true_eq]
          exact hent e he
        change (0 : Int) = (users c L t : Nat)
        rw [this]; rfl
      · rw [if_neg (hne t ht)]
        exact h.refs t ht
    apart := fun t ht0 t' ht0' ha => by
      dsimp only [newTemplate] at ha
      rcases (hmem t).mp ht0 with rfl | ht
      · rcases (hmem t').mp ht0' with rfl | ht'
        · rfl
        · rw [if_pos rfl, if_neg (hne t' ht')] at ha
          exact absurd ((ha.symm hV hmt (h.tms t' ht').vals).trans hV (h.tms t' ht').vals hmt hm hat) (hno t' ht')
      · rcases (hmem t').mp ht0' with rfl | ht'
        · rw [if_neg (hne t ht), if_pos rfl] at ha
          exact absurd (ha.trans hV (h.tms t ht).vals hmt hm hat) (hno t ht)
        · rw [if_neg (hne t ht), if_neg (hne t' ht')] at ha
          exact h.apart t ht t' ht' ha
    count := h.count }

end WG.IndexCat
