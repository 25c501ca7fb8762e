import Verif.Records.Strs6
/-! # The invariant of the whole heap -/
namespace WG.Recs

variable {C : Prop} {h h' : Heap}

/-- What the record fields hold. -/
def fldF (h : Heap) : Pos → Option Word
  | .fld r i => (h.recs r).bind (·.fields[i]?)
  | _ => none

/-- Number of fields of `p` that refer to `c`. -/
def nref (h : Heap) (p c : Word) : Nat := ((h.recs p).map fun r => r.fields.count c).getD 0

structure Inv (C : Prop) (h : Heap) : Prop where
  str : SInv C h (fldF h)
  back : BackOK h (nref h)
  refs : ∀ r rc w, h.recs r = some rc → w ∈ rc.fields → isRecVal w = true → ∃ rc', h.recs w = some rc'
  recs : ∀ r rc, h.recs r = some rc → isRecVal r = true

theorem fldF_tmp (k : Nat) : fldF h (.tmp k) = none := rfl
theorem fldF_ext (o : Word) : fldF h (.ext o) = none := rfl

theorem fldF_congr (hr : ∀ p, (h'.recs p).map (·.fields) = (h.recs p).map (·.fields)) : fldF h' = fldF h := by
  funext p
  cases p with
  | fld r i =>
    have := hr r
    simp only [fldF]
    cases a : h.recs r <;> cases b : h'.recs r <;> simp_all
  | tmp _ => rfl
  | ext _ => rfl

theorem nref_congr (hr : ∀ p, (h'.recs p).map (·.fields) = (h.recs p).map (·.fields)) : nref h' = nref h := by
  funext p c
  have := hr p
  simp only [nref]
  cases a : h.recs p <;> cases b : h'.recs p <;> simp_all

theorem BackOK.congr {N N' : Word → Word → Nat} (hB : BackOK h N)
    (hr : ∀ c r', h'.recs c = some r' → ∃ r, h.recs c = some r ∧ r'.back = r.back) (hc : h'.cells = h.cells)
    (hN : ∀ p c r, h'.recs c = some r → N' p c = N p c) : BackOK h' N' := by
  obtain ⟨bl, b1, b2, b3⟩ := hB
  have hn : cnext h' = cnext h := by funext x; simp [cnext, hc]
  have hca : carOf h' = carOf h := by funext x; simp [carOf, hc]
  refine ⟨bl, ?_, ?_, ?_⟩
  · intro c r' h1
    obtain ⟨r, h2, h3⟩ := hr c r' h1
    rw [h3, hn]; exact b1 c r h2
  · intro c c' r r' x h1 h2 h3 h4
    obtain ⟨q, q1, _⟩ := hr c r h1
    obtain ⟨q', q1', _⟩ := hr c' r' h2
    exact b2 c c' q q' x q1 q1' h3 h4
  · intro c r' h1 p
    obtain ⟨r, h2, h3⟩ := hr c r' h1
    rw [hca, hN p c r' h1]
    exact b3 c r h2 p

/-- Records are the same up to backlinks. -/
def SameRecs (h h' : Heap) : Prop :=
  ∀ p, (h.recs p = none → h'.recs p = none) ∧ (∀ rc, h.recs p = some rc → ∃ b, h'.recs p = some { rc with back := b })

theorem SameRecs.fields (hr : SameRecs h h') (p : Word) : (h'.recs p).map (·.fields) = (h.recs p).map (·.fields) := by
  cases a : h.recs p with
  | none => rw [(hr p).1 a]
  | some rc => obtain ⟨b, e⟩ := (hr p).2 rc a; rw [e]; rfl

theorem sameRecs_upd {c : Word} {r : Rec} {b : Word} (hc : h.recs c = some r) (he : h'.recs = upd h.recs c (some { r with back := b })) :
    SameRecs h h' := by
  intro p
  rw [he]
  by_cases hp : p = c
  · subst hp
    rw [upd_self, hc]
    refine ⟨(fun e => by cases e), fun rc e => ?_⟩
    cases e; exact ⟨b, rfl⟩
  · rw [upd_ne _ _ hp]
    exact ⟨id, fun rc e => ⟨rc.back, e⟩⟩

theorem SameStr.sinv (hs : SameStr h h') {F} (hI : SInv C h F) : SInv C h' F := by
  obtain ⟨s1, s2, s3, s4, s5, s6⟩ := hs
  refine hI.cells s1 s5 s6 (fun o b => by rw [s2]; exact hI.sstr o b) ?_ (fun _ _ e => e) (fun _ _ _ e => e) (fun _ _ _ _ => by rw [s2])
  intro p w hp
  have hl := hI.live p w hp
  unfold LiveS at *
  rcases kind_cases w with k | k | k | k | k | k <;> rw [k.1] at hl ⊢ <;> simp only at hl ⊢
  · rw [s1]; exact hl
  · rw [s2]; exact hl
  · rw [s3]; exact hl
  · rw [s4]; exact hl

/-! ## Walking over parents -/

variable {ι : Type}

/-- Apply `f` to the elements one after the other, until one reports an error. -/
def runList (f : ι → Word → Option (ι × Bool)) : List Word → ι → Option (ι × Bool)
  | [], x => some (x, true)
  | p :: t, x =>
    match f x p with
    | none => none
    | some (y, false) => some (y, false)
    | some (y, true) => runList f t y

theorem visitChain_eq (f : ι → Word → Option (ι × Bool)) : ∀ (l : List Word) (n : Nat) (cur : Word) (x : ι), l ≠ [] → Chain (cnext h) cur l →
    l.length ≤ n → visitChain h f n cur x = runList f (l.map (carOf h)) x := by
  intro l
  induction l with
  | nil => intro n cur x h0; exact absurd rfl h0
  | cons a l ih =>
    intro n cur x _ hc hn
    obtain ⟨k, rfl⟩ : ∃ k, n = k + 1 := ⟨n - 1, by simp at hn; omega⟩
    obtain ⟨rfl, h0, m, hm, hc2⟩ := hc
    cases hcell : h.cells cur with
    | none => simp [cnext, hcell] at hm
    | some ce =>
      simp only [cnext, hcell, Option.map_some, Option.some.injEq] at hm
      have hcar : carOf h cur = ce.car := by simp [carOf, hcell]
      rw [visitChain, hcell]
      simp only [List.map_cons, runList, hcar]
      cases hf : f x ce.car with
      | none => rfl
      | some y =>
        obtain ⟨y, b⟩ := y
        cases b with
        | false => rfl
        | true =>
          simp only
          by_cases hz : ce.cdr = 0#64
          · rw [if_pos hz]
            rw [hm] at hz
            rw [(Chain.nil_iff hc2).1 hz]
            rfl
          · rw [if_neg hz, hm]
            exact ih k m y (fun e => hz (by rw [hm]; exact (Chain.nil_iff hc2).2 e)) hc2 (by simp at hn; omega)

theorem runList_ok {f : ι → Word → Option (ι × Bool)} : ∀ (l : List Word) (x : ι), (∀ p ∈ l, ∀ y, ∃ z, f y p = some z) →
    ∃ z, runList f l x = some z
  | [], x, _ => ⟨_, rfl⟩
  | p :: t, x, hf => by
    obtain ⟨⟨y, b⟩, e⟩ := hf p (by simp) x
    rw [runList, e]
    cases b with
    | false => exact ⟨_, rfl⟩
    | true => exact runList_ok t y (fun q hq => hf q (by simp [hq]))

/-- The records referring to `c`, in the order of its backlink chain. -/
theorem Inv.parents (hI : Inv C h) {c : Word} {rc : Rec} (hc : h.recs c = some rc) :
    ∃ bl : List Word, Chain (cnext h) rc.back bl ∧ ∀ p, (bl.map (carOf h)).count p = nref h p c := by
  obtain ⟨bl, b1, b2, b3⟩ := hI.back
  exact ⟨bl c, b1 c rc hc, b3 c rc hc⟩

theorem nref_pos {p c : Word} (hn : 0 < nref h p c) : ∃ rp, h.recs p = some rp ∧ c ∈ rp.fields := by
  unfold nref at hn
  cases hp : h.recs p with
  | none => rw [hp] at hn; simp at hn
  | some rp =>
    rw [hp] at hn
    exact ⟨rp, rfl, List.count_pos_iff.1 (by simpa using hn)⟩

theorem visitParents_ok (hI : Inv C h) (X : Ix ι) (op : ι → Word → Nat → ι × Int) : ∀ (d : Nat) (value : Word) (x : ι) (r : Word) (rc : Rec),
    h.recs r = some rc → ∃ z, visitParents X op h d value x r = some z := by
  intro d
  induction d with
  | zero =>
    intro value x r rc hr
    simp only [visitParents, hr]
    split_ifs <;> exact ⟨_, rfl⟩
  | succ d ih =>
    intro value x r rc hr
    simp only [visitParents, hr]
    generalize (if rc.special = true then (x, true) else visitCols X op r value rc.fields 0 x) = y
    split_ifs with h1 h2
    · exact ⟨_, rfl⟩
    · obtain ⟨bl, b1, b2⟩ := hI.parents hr
      rw [visitChain_eq _ bl walkFuel _ _ (fun e => h2 ((Chain.nil_iff b1).2 e)) b1 (Nat.le_of_lt b1.length_lt)]
      refine runList_ok _ _ ?_
      intro p hp y
      have : 0 < nref h p r := by rw [← b2]; exact List.count_pos_iff.2 hp
      obtain ⟨rp, e, _⟩ := nref_pos this
      exact ih r y p rp e
    · exact ⟨_, rfl⟩

theorem visitAll_ok (hI : Inv C h) (X : Ix ι) (op : ι → Word → Nat → ι × Int) (d : Nat) {r : Word} {rc : Rec} (hr : h.recs r = some rc)
    (h0 : rc.back ≠ 0#64) (x : ι) : ∃ z, visitChain h (visitParents X op h d r) walkFuel rc.back x = some z := by
  obtain ⟨bl, b1, b2⟩ := hI.parents hr
  rw [visitChain_eq _ bl walkFuel _ _ (fun e => h0 ((Chain.nil_iff b1).2 e)) b1 (Nat.le_of_lt b1.length_lt)]
  refine runList_ok _ _ ?_
  intro p hp y
  have : 0 < nref h p r := by rw [← b2]; exact List.count_pos_iff.2 hp
  obtain ⟨rp, e, _⟩ := nref_pos this
  exact visitParents_ok hI X op d r y p rp e

end WG.Recs
