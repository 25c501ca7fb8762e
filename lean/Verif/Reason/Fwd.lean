import Verif.Reason.SafeRun

/-! # Renaming loses nothing -/
namespace WG.Reason

/-- The values of variables use only variables that have been given out. -/
def HighFree (b : Bld) : Prop := ∀ n t, b.st.bank n = some t → ∀ v, v ∈ vars t → v < 4000 + b.vc

/-- Values for the old variables can be extended to the new ones. -/
structure Fwd (b b' : Bld) : Prop where
  vc : b.vc ≤ b'.vc
  high : HighFree b'
  more : ∀ (D : Type) (A : Alg D) (ρ : Nat → D), Resp b.mem A ρ b.st → ∃ ρ1, Resp b'.mem A ρ1 b'.st ∧ ∀ n, n < 4000 + b.vc → ρ1 n = ρ n

theorem Fwd.refl {b : Bld} (h : HighFree b) : Fwd b b := ⟨Nat.le_refl _, h, fun _ _ ρ hr => ⟨ρ, hr, fun _ _ => rfl⟩⟩

theorem Fwd.trans {b b' b'' : Bld} (h : Fwd b b') (h' : Fwd b' b'') : Fwd b b'' :=
  ⟨Nat.le_trans h.vc h'.vc, h'.high, fun D A ρ hr => by
    obtain ⟨ρ1, r1, e1⟩ := h.more D A ρ hr
    obtain ⟨ρ2, r2, e2⟩ := h'.more D A ρ1 r1
    exact ⟨ρ2, r2, fun n hn => (e2 n (Nat.lt_of_lt_of_le hn (Nat.add_le_add_left h.vc _))).trans (e1 n hn)⟩⟩

/-- The variables are those of bank `B`. -/
def InBank (B : Nat) (vs : List Nat) : Prop := ∀ v, v ∈ vs → B * 1000 ≤ v ∧ v < B * 1000 + 1000

theorem reach_high {b : Bld} (h : HighFree b) {w v : Nat} (hw : w < 4000 + b.vc) (hr : Reach b.st w v) : v < 4000 + b.vc := by
  induction hr with
  | refl => exact hw
  | tail _ hd ih =>
    obtain ⟨t, h1, h2⟩ := hd
    exact h _ t h1 _ h2

variable {cfg : Cfg} {comp : Bool}

theorem buildVar_fwd {B : Nat} {b b' : Bld} {n : Nat} {t : Term} (hb : BOK b) (hh : HighFree b) (hn : n < 4000 + b.vc)
    (hu : b.st.bank n = none) (h : buildVar (some B) b n = .ok (some (t, b'))) : Fwd b b' ∧ InBank B (vars t) := by
  have hvc := hb.vc
  simp only [buildVar] at h
  by_cases hlt : n < 4000
  · rw [if_pos hlt] at h
    by_cases hv : 1000 ≤ b.vc
    · rw [if_pos hv] at h; cases h
    · rw [if_neg hv, set_ok hb.inv (by unfold NV; omega) hu, bind_ok] at h
      injection h with h; injection h with h; injection h with e1 e2; subst e1; subst e2
      refine ⟨⟨Nat.le_succ _, fun m w hm v hv => ?_, fun D A ρ hr => ?_⟩, fun v hv => ?_⟩
      · show v < 4000 + (b.vc + 1)
        by_cases e : m = n
        · subst e
          rw [upd_same] at hm
          injection hm with hm; subst hm
          simp only [vars, List.mem_singleton] at hv; omega
        · rw [upd_other e] at hm
          have := hh m w hm v hv
          omega
      · refine ⟨fun m => if m = b.vc + 4000 then ρ n else ρ m, (upd_resp hu).2 ⟨fun m w hm => ?_, ?_⟩, fun m hm => if_neg (by omega)⟩
        · have hne : m ≠ b.vc + 4000 := by
            intro e
            rw [e, hb.dom _ (by omega)] at hm
            cases hm
          show (if m = b.vc + 4000 then ρ n else ρ m) = _
          rw [if_neg hne, hr m w hm]
          refine (ev_congr _ _ _ _ _ fun v hv => if_neg ?_).symm
          have := hh m w hm v hv
          omega
        · simp [ev]
      · simp only [vars, List.mem_singleton] at hv; omega
  · rw [if_neg hlt] at h
    injection h with h; injection h with h; injection h with e1 e2; subst e1; subst e2
    refine ⟨.refl hh, fun v hv => ?_⟩
    simp only [vars, List.mem_singleton] at hv; omega

theorem buildLoop_fwd {B : Nat} (hB : B ≤ 3) {f : Nat}
    (hbd : ∀ b x t b', BOK b → HighFree b → Fine b.mem x → (∀ v, v ∈ vars x → v < 4000 + b.vc) →
      build cfg comp (some B) f b x = .ok (some (t, b')) → Fwd b b' ∧ InBank B (vars t)) :
    ∀ (xs : List Term) (b : Bld) (ts : List Term) (b' : Bld), BOK b → HighFree b → (∀ x, x ∈ xs → Fine b.mem x) →
    (∀ v, v ∈ varsL xs → v < 4000 + b.vc) → buildLoop (build cfg comp (some B) f) b xs = .ok (some (ts, b')) →
    Fwd b b' ∧ InBank B (varsL ts)
  | [], b, ts, b', _, hh, _, _, h => by
    injection h with h; injection h with h; injection h with e1 e2; subst e1; subst e2
    exact ⟨.refl hh, fun v hv => by simp [varsL] at hv⟩
  | x :: xs, b, ts, b', hb, hh, hx, hv, h => by
    rw [buildLoop] at h
    obtain ⟨r, hr, h⟩ := bind_eq_ok h
    cases r with
    | none => cases h
    | some p =>
      obtain ⟨u, b1⟩ := p
      obtain ⟨r, hr', h⟩ := bind_eq_ok h
      cases r with
      | none => cases h
      | some p =>
        obtain ⟨us, b2⟩ := p
        injection h with h; injection h with h; injection h with e1 e2; subst e1; subst e2
        have S := build_says hB f b x u b1 hb (hx x (by simp)) hr
        obtain ⟨P1, P2⟩ := hbd b x u b1 hb hh (hx x (by simp)) (fun v h => hv v (by simp [varsL, h])) hr
        obtain ⟨Q1, Q2⟩ := buildLoop_fwd hB hbd xs b1 us b2 S.grow.ok P1.high
          (fun y hy => fine_ext hb.blank S.grow.ext (hx y (by simp [hy])))
          (fun v h => Nat.lt_of_lt_of_le (hv v (by simp [varsL, h])) (Nat.add_le_add_left P1.vc _)) hr'
        refine ⟨P1.trans Q1, fun v hv => ?_⟩
        simp only [varsL, List.mem_append] at hv
        exact hv.elim (P2 v) (Q2 v)

theorem build_fwd {B : Nat} (hB : B ≤ 3) : ∀ (f : Nat) (b : Bld) (x t : Term) (b' : Bld), BOK b → HighFree b → Fine b.mem x →
    (∀ v, v ∈ vars x → v < 4000 + b.vc) → build cfg comp (some B) f b x = .ok (some (t, b')) → Fwd b b' ∧ InBank B (vars t)
  | 0, _, _, _, _, _, _, _, _, h => by cases h
  | f + 1, b, x, t, b', hb, hh, hx, hv, h => by
    rw [build] at h
    obtain ⟨y, hy, h⟩ := bind_eq_ok h
    have d := deref_ok hb.inv hx hy
    have hvy : ∀ v, v ∈ vars y → v < 4000 + b.vc := by
      intro v h
      obtain ⟨w, h1, h2⟩ := d.down v h
      exact reach_high hh (hv w h1) h2
    cases hd : d.fine with
    | @var n hn => exact buildVar_fwd hb hh (hvy n (by simp [vars])) (d.unbound n rfl) h
    | con c =>
      injection h with h; injection h with h; injection h with e1 e2; subst e1; subst e2
      exact ⟨.refl hh, fun v hv => by simp [vars] at hv⟩
    | @app a ts h1 h2 =>
      simp only at h
      by_cases hr : cfg.room b.next = true
      · rw [if_pos hr] at h
        obtain ⟨r, hr', h⟩ := bind_eq_ok h
        cases r with
        | none => cases h
        | some p =>
          obtain ⟨us, b1⟩ := p
          have hb0 : BOK { b with next := b.next + 1 } :=
            ⟨hb.inv, fun a ha => hb.blank a (Nat.le_trans (Nat.le_succ _) ha), hb.dom, hb.vc⟩
          obtain ⟨Q1, Q2⟩ := buildLoop_fwd hB (build_fwd hB f) ts { b with next := b.next + 1 } us b1 hb0 hh h2 hvy hr'
          have hc : Cells b1.mem (b1.mem.put b.next us) := ⟨rfl, rfl, rfl⟩
          have Q3 : Fwd b { b1 with mem := b1.mem.put b.next us } :=
            ⟨Q1.vc, Q1.high, fun D A ρ hr => by
              obtain ⟨ρ1, r1, e1⟩ := Q1.more D A ρ hr
              exact ⟨ρ1, (resp_cells hc).2 r1, e1⟩⟩
          simp only at h
          rw [buildRec] at h
          cases comp with
          | false =>
            rw [if_neg (by simp)] at h
            injection h with h; injection h with h; injection h with e1 e2; subst e1; subst e2
            exact ⟨Q3, Q2⟩
          | true =>
            rw [if_pos rfl] at h
            obtain ⟨r, hr, h⟩ := bind_eq_ok h
            cases r with
            | none =>
              injection h with h; injection h with h; injection h with e1 e2; subst e1; subst e2
              exact ⟨Q3, Q2⟩
            | some c =>
              injection h with h; injection h with h; injection h with e1 e2; subst e1; subst e2
              exact ⟨Q3, fun v hv => by simp [vars] at hv⟩
      · rw [if_neg hr] at h; cases h

theorem buildLits_fwd {B : Nat} (hB : B ≤ 3) {f : Nat} : ∀ (xs : List Lit) (b : Bld) (ls : List Lit) (b' : Bld), BOK b → HighFree b →
    (∀ x : Lit, x ∈ xs → Fine b.mem x.atom) → Low xs → buildLits (build cfg comp (some B) f) b xs = .ok (some (ls, b')) →
    Fwd b b' ∧ ∀ l : Lit, l ∈ ls → InBank B (vars l.atom)
  | [], b, ls, b', _, hh, _, _, h => by
    injection h with h; injection h with h; injection h with e1 e2; subst e1; subst e2
    exact ⟨.refl hh, fun l hl => by cases hl⟩
  | x :: xs, b, ls, b', hb, hh, hx, hv, h => by
    rw [buildLits] at h
    obtain ⟨r, hr, h⟩ := bind_eq_ok h
    cases r with
    | none => cases h
    | some p =>
      obtain ⟨u, b1⟩ := p
      obtain ⟨r, hr', h⟩ := bind_eq_ok h
      cases r with
      | none => cases h
      | some p =>
        obtain ⟨us, b2⟩ := p
        injection h with h; injection h with h; injection h with e1 e2; subst e1; subst e2
        have S := build_says hB f b x.atom u b1 hb (hx x (by simp)) hr
        obtain ⟨P1, P2⟩ := build_fwd hB f b x.atom u b1 hb hh (hx x (by simp))
          (fun v h => Nat.lt_of_lt_of_le (hv x (by simp) v h) (Nat.le_add_right _ _)) hr
        obtain ⟨Q1, Q2⟩ := buildLits_fwd hB xs b1 us b2 S.grow.ok P1.high
          (fun y hy => fine_ext hb.blank S.grow.ext (hx y (by simp [hy]))) (fun l h => hv l (by simp [h])) hr'
        refine ⟨P1.trans Q1, fun l hl => ?_⟩
        rcases List.mem_cons.1 hl with e | hl
        · subst e; exact P2
        · exact Q2 l hl

/-- Two clauses with the same instances, literal by literal. -/
structure Variant {D : Type} (M : Mem) (A : Alg D) (c c' : Clause) : Prop where
  forth : ∀ ρ, ∃ ρ', meaning M A ρ' c'.lits = meaning M A ρ c.lits
  back : ∀ ρ', ∃ ρ, meaning M A ρ' c'.lits = meaning M A ρ c.lits

theorem Variant.trans {D : Type} {M : Mem} {A : Alg D} {c c' c'' : Clause} (h : Variant M A c c') (h' : Variant M A c' c'') :
    Variant M A c c'' := by
  constructor
  · intro ρ
    obtain ⟨ρ1, e1⟩ := h.forth ρ
    obtain ⟨ρ2, e2⟩ := h'.forth ρ1
    exact ⟨ρ2, e2.trans e1⟩
  · intro ρ
    obtain ⟨ρ1, e1⟩ := h'.back ρ
    obtain ⟨ρ2, e2⟩ := h.back ρ1
    exact ⟨ρ2, e1.trans e2⟩

/-- The assignment for the new variables. -/
theorem link_of {D : Type} (B : Nat) (ρ : Nat → D) : Link B ρ fun n => ρ (4000 + (n - B * 1000)) := by
  intro k hk
  show _ = ρ (4000 + (B * 1000 + k - B * 1000))
  rw [Nat.add_sub_cancel_left]

theorem variant_of {D : Type} {I : Interp D} {B : Nat} {b b' : Bld} {c c' : Clause} (hb : BOK b') (hst : b.st = St.clear) (hF : Fwd b b')
    (hcells : Cells b.mem b'.mem) (hlow : Low c.lits)
    (hev : ∀ ρ ρ' : Nat → D, Resp b'.mem I.alg ρ b'.st → Link B ρ ρ' → meaning b'.mem I.alg ρ' c'.lits = meaning b.mem I.alg ρ c.lits) :
    Variant b.mem I.alg c c' := by
  constructor
  · intro ρ
    obtain ⟨ρ1, r1, e1⟩ := hF.more D I.alg ρ (by rw [hst]; intro n t h; cases h)
    refine ⟨fun n => ρ1 (4000 + (n - B * 1000)), ?_⟩
    rw [← meaning_cells hcells, hev ρ1 _ r1 (link_of B ρ1)]
    refine List.map_congr_left fun l hl => ?_
    rw [ev_congr _ _ ρ1 ρ _ fun v hv => e1 v (Nat.lt_of_lt_of_le (hlow l hl v hv) (Nat.le_add_right _ _))]
  · intro ρ'
    obtain ⟨ρ, h1, h2⟩ := exists_link hb I.alg B ρ'
    exact ⟨ρ, by rw [← meaning_cells hcells]; exact hev ρ ρ' h1 h2⟩

theorem buildCl_variant {D : Type} {I : Interp D} {B : Nat} (hB : B ≤ 3) {f : Nat} {b b' : Bld} {c c' : Clause} (hI : I.Std cfg b.mem)
    (hb : BOK b) (hst : b.st = St.clear) (hc : c.Fine b.mem) (hlow : Low c.lits)
    (h : buildCl cfg comp (some B) f b c = .ok (some (c', b'))) :
    Variant b.mem I.alg c c' ∧ ∀ l : Lit, l ∈ c'.lits → InBank B (vars l.atom) := by
  have hh : HighFree b := by intro n t h; rw [hst] at h; cases h
  cases c with
  | fact a =>
    rw [buildCl] at h
    obtain ⟨r, hr, h⟩ := bind_eq_ok h
    cases r with
    | none => cases h
    | some p =>
      obtain ⟨u, b1⟩ := p
      cases u with
      | app a1 us =>
        injection h with h; injection h with h; injection h with e1 e2; subst e1; subst e2
        have S := build_says hB f b a _ _ hb (hc ⟨false, a⟩ (by simp [Clause.lits])) hr
        obtain ⟨P1, P2⟩ := build_fwd hB f b a _ _ hb hh (hc ⟨false, a⟩ (by simp [Clause.lits]))
          (fun v hv => Nat.lt_of_lt_of_le (hlow ⟨false, a⟩ (by simp [Clause.lits]) v hv) (Nat.le_add_right _ _)) hr
        refine ⟨variant_of (B := B) (c := .fact a) (c' := .fact (.app a1 us)) S.grow.ok hst P1 S.grow.ext.cells hlow fun ρ ρ' hR hL => ?_, fun l hl => ?_⟩
        · simp only [Clause.lits, meaning, List.map_cons, List.map_nil, S.eval D I ρ ρ' hI hR hL]
        · simp only [Clause.lits, List.mem_singleton] at hl
          subst hl; exact P2
      | _ => cases h
  | rule xs =>
    rw [buildCl] at h
    by_cases hr : cfg.room b.next = true
    · rw [if_pos hr] at h
      obtain ⟨r, hr', h⟩ := bind_eq_ok h
      cases r with
      | none => cases h
      | some p =>
        obtain ⟨us, b1⟩ := p
        injection h with h; injection h with h; injection h with e1 e2; subst e1; subst e2
        have hb0 : BOK { b with next := b.next + 1 } :=
          ⟨hb.inv, fun a ha => hb.blank a (Nat.le_trans (Nat.le_succ _) ha), hb.dom, hb.vc⟩
        have S := buildLits_says (build_says hB f) xs _ us b1 hb0 hc hr'
        obtain ⟨P1, P2⟩ := buildLits_fwd hB xs { b with next := b.next + 1 } us b1 hb0 hh hc hlow hr'
        exact ⟨variant_of (B := B) (b := { b with next := b.next + 1 }) (c := .rule xs) (c' := .rule us) S.grow.ok hst P1 S.grow.ext.cells hlow
          fun ρ ρ' hR hL => S.eval D I ρ ρ' hI hR hL, P2⟩
    · rw [if_neg hr] at h; cases h

/-! ## Variables of the unifier -/

/-- The values are no records and have variables below `N`. -/
def LowSt (N : Nat) (s : St) : Prop := ∀ n t, s.bank n = some t → t.isRec = false ∧ ∀ v, v ∈ vars t → v < N

def LowT (N : Nat) (t : Term) : Prop := t.isRec = false ∧ ∀ v, v ∈ vars t → v < N

theorem varval_low {N : Nat} {s : St} (h : LowSt N s) : ∀ (f n : Nat) (t : Term), n < N → varval f s n = .ok t → LowT N t
  | 0, _, _, _, e => by cases e
  | f + 1, n, t, hn, e => by
    rw [varval] at e
    obtain ⟨o, ho, e⟩ := bind_eq_ok e
    have hb : s.bank n = o := by
      rw [St.get] at ho
      split at ho
      · injection ho
      · cases ho
    match o, hb, e with
    | none, _, e => injection e with e; subst e; exact ⟨rfl, fun v hv => by simp only [vars, List.mem_singleton] at hv; omega⟩
    | some (.var m), hb, e => exact varval_low h f m t ((h n _ hb).2 m (by simp [vars])) e
    | some (.con c), hb, e => injection e with e; subst e; exact h n _ hb
    | some .nul, hb, e => injection e with e; subst e; exact h n _ hb
    | some (.app a ts), hb, e => injection e with e; subst e; exact h n _ hb

theorem deref_low {N : Nat} {s : St} (h : LowSt N s) {f : Nat} {x t : Term} (hx : LowT N x) (e : deref f s x = .ok t) : LowT N t := by
  cases x with
  | var n => exact varval_low h f n t (hx.2 n (by simp [vars])) e
  | con c => injection e with e; subst e; exact hx
  | nul => exact absurd hx.1 (by simp [Term.isRec])
  | app a ts => exact absurd hx.1 (by simp [Term.isRec])

theorem upd_low {N : Nat} {s : St} (h : LowSt N s) {n : Nat} {t : Term} (ht : LowT N t) : LowSt N (s.upd n t) := by
  intro m w hm
  by_cases e : m = n
  · subst e; rw [upd_same] at hm; injection hm with hm; subst hm; exact ht
  · rw [upd_other e] at hm; exact h m w hm

theorem unifyPart_low {N : Nat} {M : Mem} : ∀ (f : Nat) (s : St) (x y : Term) (b : Bool) (s' : St), LowSt N s → LowT N x → LowT N y →
    unify M f s x y = .ok (b, s') → LowSt N s'
  | 0, _, _, _, _, _, _, _, _, h => by cases h
  | f + 1, s, x, y, b, s', hs, hx, hy, h => by
    rw [unify] at h
    by_cases h1 : x.same y = true
    · rw [if_pos h1] at h; injection h with h; injection h with _ e; subst e; exact hs
    · rw [if_neg h1] at h
      obtain ⟨x', e1, h⟩ := bind_eq_ok h
      obtain ⟨y', e2, h⟩ := bind_eq_ok h
      have hx' := deref_low hs hx e1
      have hy' := deref_low hs hy e2
      by_cases h2 : x'.same y' = true
      · rw [if_pos h2] at h; injection h with h; injection h with _ e; subst e; exact hs
      · rw [if_neg h2] at h
        have set : ∀ n t, LowT N t → ((s.set n t).bind fun s => Res.ok (true, s)) = Res.ok (b, s') → LowSt N s' := by
          intro n t ht h
          obtain ⟨s1, h1, h⟩ := bind_eq_ok h
          injection h with h; injection h with _ e; subst e
          rw [St.set] at h1
          split at h1
          · injection h1 with h1; subst h1
            exact upd_low hs ht
          · cases h1
        cases x' with
        | nul => exact absurd hx'.1 (by simp [Term.isRec])
        | app a ts => exact absurd hx'.1 (by simp [Term.isRec])
        | var n =>
          cases y' with
          | nul => exact absurd hy'.1 (by simp [Term.isRec])
          | app a ts => exact absurd hy'.1 (by simp [Term.isRec])
          | var m => exact set n (.var m) hy' h
          | con c => exact set n (.con c) hy' h
        | con c =>
          cases y' with
          | nul => exact absurd hy'.1 (by simp [Term.isRec])
          | app a ts => exact absurd hy'.1 (by simp [Term.isRec])
          | var m => exact set m (.con c) hx' h
          | con d => injection h with h; injection h with _ e; subst e; exact hs

theorem unifyParts_low {N : Nat} {M : Mem} {f : Nat} : ∀ (ts us : List Term) (s : St) (b : Bool) (s' : St), LowSt N s →
    (∀ t : Term, t ∈ ts → LowT N t) → (∀ t : Term, t ∈ us → LowT N t) →
    unifyLoop (unify M f) s ts us = .ok (b, s') → LowSt N s'
  | t :: ts, u :: us, s, b, s', hs, h1, h2, h => by
    rw [unifyLoop] at h
    by_cases he : t.same u = true
    · rw [if_pos he] at h
      exact unifyParts_low ts us s b s' hs (fun t h => h1 t (by simp [h])) (fun t h => h2 t (by simp [h])) h
    · rw [if_neg he] at h
      obtain ⟨⟨r, s1⟩, hr, h⟩ := bind_eq_ok h
      have hs1 := unifyPart_low f s t u r s1 hs (h1 t (by simp)) (h2 u (by simp)) hr
      cases r with
      | true => exact unifyParts_low ts us s1 b s' hs1 (fun t h => h1 t (by simp [h])) (fun t h => h2 t (by simp [h])) h
      | false => injection h with h; injection h with _ e; subst e; exact hs1
  | [], us, s, b, s', hs, _, _, h => by
    rw [unifyLoop] at h
    · injection h with h; injection h with _ e; subst e; exact hs
    · intros; simp_all
  | _ :: _, [], s, b, s', hs, _, _, h => by
    rw [unifyLoop] at h
    · injection h with h; injection h with _ e; subst e; exact hs
    · intros; simp_all

theorem unifyAtom_low {N : Nat} {M : Mem} {f : Nat} {s : St} {x y : Term} {b : Bool} {s' : St} (hs : LowSt N s) (hx : Flat x) (hy : Flat y)
    (vx : ∀ v, v ∈ vars x → v < N) (vy : ∀ v, v ∈ vars y → v < N) (h : unify M f s x y = .ok (b, s')) : LowSt N s' := by
  cases f with
  | zero => cases h
  | succ f =>
    cases hx with
    | @app a ts h1 =>
      cases hy with
      | @app a' us h2 =>
        rw [unify] at h
        simp only [deref, bind_ok] at h
        by_cases he : (Term.app a ts).same (.app a' us) = true
        · rw [if_pos he] at h; injection h with h; injection h with _ e; subst e; exact hs
        · rw [if_neg he, if_neg he] at h
          simp only [ladder, Term.parts, bind_ok] at h
          split at h
          · injection h with h; injection h with _ e; subst e; exact hs
          · exact unifyParts_low ts us s b s' hs (fun t ht => ⟨h1 t ht, fun v hv => vx v (mem_varsL.2 ⟨t, ht, hv⟩)⟩)
              (fun t ht => ⟨h2 t ht, fun v hv => vy v (mem_varsL.2 ⟨t, ht, hv⟩)⟩) h

end WG.Reason
