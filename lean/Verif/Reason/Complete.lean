import Verif.Reason.Satur
import Verif.Reason.HornSpec

/-! # The loop keeps everything, and ends saturated -/
namespace WG.Reason

theorem plain_same {t : Term} (h : Plain t) : t.same t = true := by
  cases h with
  | app _ _ _ => simp [Term.same]

section
variable {cfg : Cfg} {M : Mem} {cs : List Clause} {I0 : Interp Tree}

theorem hash_eq (hhash : HashOK cfg M) {A : Alg Tree} (hA : Herb M A) {x y : Term} (px : Plain x) (py : Plain y) {σ τ : Nat → Tree}
    (h : ev M A σ x = ev M A τ y) : funHash cfg x = funHash cfg y := by
  rw [hA.atom x px, hA.atom y py] at h
  cases px with
  | app _ _ _ =>
    cases py with
    | app _ _ _ =>
      simp only [ev, evL, treeAlg] at h
      injection h with h
      injection h with h _
      injection h with h
      simp only [funHash]
      rw [hhash _ _ h]

theorem said_cov {A : Alg Tree} {x : Term} {xcl : Clause} {y : Term} {ycl : Clause} {ds : List Clause} {ω : Nat → Tree}
    (h : Said M A x xcl y ycl ds ω) {K : List (Bool × Tree)} {m : Nat} (hK : ∀ p, Rest M A ω x xcl y ycl p → p ∈ K)
    (hm : xcl.lits.length + ycl.lits.length ≤ m + 2) : Taut K ∨ Cov M A ds K m := by
  rcases h with ⟨T, h1, h2⟩ | ⟨c, h1, ⟨ρ, h2⟩, h3⟩
  · exact Or.inl ⟨T, hK _ h1, hK _ h2⟩
  · exact Or.inr ⟨c, h1, by omega, ρ, fun l hl => hK _ (h2 l hl)⟩

/-- The two assignments in one: the first for bank 1. -/
def both (σ τ : Nat → Tree) (n : Nat) : Tree := if n < 2000 then σ n else τ n

theorem both_one {A : Alg Tree} {σ τ : Nat → Tree} {t : Term} (h : InBank 1 (vars t)) : ev M A (both σ τ) t = ev M A σ t :=
  ev_congr _ _ _ _ _ fun v hv => if_pos (by have := h v hv; omega)

theorem both_two {A : Alg Tree} {σ τ : Nat → Tree} {t : Term} (h : InBank 2 (vars t)) : ev M A (both σ τ) t = ev M A τ t :=
  ev_congr _ _ _ _ _ fun v hv => if_neg (by have := h v hv; omega)

theorem meaning_split {A : Alg Tree} {σ σ1 : Nat → Tree} {pre post ls : List Lit} {x : Term} {n : Bool}
    (h : meaning M A σ (pre ++ ⟨n, x⟩ :: post) = meaning M A σ1 ls) : ∃ pre1 x1 post1, ls = pre1 ++ ⟨n, x1⟩ :: post1 ∧
      meaning M A σ pre = meaning M A σ1 pre1 ∧ ev M A σ x = ev M A σ1 x1 ∧ meaning M A σ post = meaning M A σ1 post1 := by
  simp only [meaning, List.map_append, List.map_cons] at h
  obtain ⟨pre1, rest1, h1, h2, h3⟩ := List.map_eq_append_iff.1 h.symm
  obtain ⟨l1, post1, h4, h5, h6⟩ := List.map_eq_cons_iff.1 h3
  obtain ⟨n1, x1⟩ := l1
  simp only [Prod.mk.injEq] at h5
  obtain ⟨h7, h8⟩ := h5
  subst h7
  exact ⟨pre1, x1, post1, by rw [h1, h4], h2.symm, h8.symm, h6.symm⟩

/-- What is left, if one parent is a single literal and from the other one literal is cut. -/
theorem rest_mem {A : Alg Tree} {ω σ : Nat → Tree} {x a : Term} {c P : Clause} {pre post : List Lit} {n : Bool} (hc : c.lits = pre ++ ⟨n, x⟩ :: post)
    (hP : P.lits = [⟨!n, a⟩]) (hx : x.same x = true) (ha : a.same a = true)
    (hω : ∀ l : Lit, l ∈ c.lits → ev M A ω l.atom = ev M A σ l.atom) {p : Bool × Tree} (h : Rest M A ω x c a P p) :
    p ∈ meaning M A σ (pre ++ post) := by
  rcases h with ⟨l, h1, h2, h3⟩ | ⟨l, h1, h2, h3⟩
  · subst h3
    rw [hω l h1]
    refine meaning_mem ?_
    rw [hc] at h1
    rcases List.mem_append.1 h1 with h1 | h1
    · exact List.mem_append_left _ h1
    · rcases List.mem_cons.1 h1 with h1 | h1
      · subst h1; simp only at h2; rw [hx] at h2; cases h2
      · exact List.mem_append_right _ h1
  · rw [hP, List.mem_singleton] at h1
    subst h1; simp only at h2; rw [ha] at h2; cases h2

theorem Rest.symm {A : Alg Tree} {ω : Nat → Tree} {x y : Term} {xcl ycl : Clause} {p : Bool × Tree} (h : Rest M A ω x xcl y ycl p) :
    Rest M A ω y ycl x xcl p := Or.symm h

/-! ## The stages -/

structure Stored (cfg : Cfg) (c : Clause) (ls : List Lit) (s s' : Sys) : Prop where
  active : s'.active = s.active
  passive : s'.passive = s.passive
  pos : ∀ e, e ∈ s.pos → e ∈ s'.pos
  neg : ∀ e, e ∈ s.neg → e ∈ s'.neg
  pos' : ∀ e : Nat × Term × Clause, e ∈ s'.pos → e ∈ s.pos ∨ e.2.2 = c
  neg' : ∀ e : Nat × Term × Clause, e ∈ s'.neg → e ∈ s.neg ∨ e.2.2 = c
  new : ∀ l : Lit, l ∈ ls → ∃ k, funHash cfg l.atom = .ok k ∧ (k, l.atom, c) ∈ if l.neg then s'.neg else s'.pos

theorem storeTerms_keep {c : Clause} : ∀ (ls : List Lit) (s s' : Sys), storeTerms cfg c ls s = .ok s' → Stored cfg c ls s s'
  | [], s, s', h => by
    injection h with h; subst h
    exact ⟨rfl, rfl, fun _ h => h, fun _ h => h, fun _ h => Or.inl h, fun _ h => Or.inl h, fun l hl => by cases hl⟩
  | l :: ls, s, s', h => by
    rw [storeTerms] at h
    obtain ⟨k, hk, h⟩ := bind_eq_ok h
    by_cases hn : l.neg = true
    · rw [if_pos hn] at h
      have P := storeTerms_keep ls { s with neg := (k, l.atom, c) :: s.neg } s' h
      refine ⟨P.active, P.passive, P.pos, fun e he => P.neg e (List.mem_cons_of_mem _ he), P.pos', fun e he => ?_, fun l' hl => ?_⟩
      · rcases P.neg' e he with h | h
        · rcases List.mem_cons.1 h with h | h
          · subst h; exact Or.inr rfl
          · exact Or.inl h
        · exact Or.inr h
      · rcases List.mem_cons.1 hl with e | hl
        · subst e
          exact ⟨k, hk, by rw [if_pos hn]; exact P.neg _ (List.mem_cons_self ..)⟩
        · exact P.new l' hl
    · rw [if_neg hn] at h
      have P := storeTerms_keep ls { s with pos := (k, l.atom, c) :: s.pos } s' h
      refine ⟨P.active, P.passive, fun e he => P.pos e (List.mem_cons_of_mem _ he), P.neg, fun e he => ?_, P.neg', fun l' hl => ?_⟩
      · rcases P.pos' e he with h | h
        · rcases List.mem_cons.1 h with h | h
          · subst h; exact Or.inr rfl
          · exact Or.inl h
        · exact Or.inr h
      · rcases List.mem_cons.1 hl with e | hl
        · subst e
          exact ⟨k, hk, by rw [if_neg hn]; exact P.pos _ (List.mem_cons_self ..)⟩
        · exact P.new l' hl

theorem processGiven_keep (hI : I0.Std cfg M) {f : Nat} {s s' : Sys} {c c' : Clause} (hs : SysOK cfg M cs s) (hc : s.b.st = St.clear)
    (hf : c.Fine s.b.mem) (hlow : Low c.lits) (h : processGiven cfg f s c = .ok (some (c', s'))) :
    Variant M I0.alg c c' ∧ (∀ l : Lit, l ∈ c'.lits → InBank 1 (vars l.atom)) ∧
    s'.active = s.active ∧ s'.passive = s.passive ∧ s'.pos = s.pos ∧ s'.neg = s.neg := by
  rw [processGiven] at h
  obtain ⟨c1, s1, h1, h⟩ := out_bind_ok h
  obtain ⟨b1, hb1, e⟩ := built_ok h1
  subst e
  injection h with h; injection h with h; injection h with e1 e2; subst e1; subst e2
  obtain ⟨V, B⟩ := buildCl_variant (I := I0) (b := { s.b with vc := 0 }) (B := 1) (by omega) (std_cells hs.cells hI) (rebuilt_bok hs hc) hc hf hlow hb1
  exact ⟨variant_cells hs.cells V, B, rfl, rfl, rfl, rfl⟩

theorem addActive_keep (hh : cfg.hyper = false) (hI : I0.Std cfg M) {f : Nat} {s s' : Sys} {c : Clause} {u : Unit} (hs : SysOK cfg M cs s)
    (hc : s.b.st = St.clear) (hf : c.Fine s.b.mem) (hlow : Low c.lits) (h : addActive cfg f s c = .ok (some (u, s'))) :
    ∃ c', Variant M I0.alg c c' ∧ (∀ l : Lit, l ∈ c'.lits → InBank 2 (vars l.atom)) ∧
    Stored cfg c' (chosen cfg false c') { s with active := s.active ++ [c'] } s' := by
  rw [addActive] at h
  obtain ⟨c1, s1, h1, h⟩ := out_bind_ok h
  obtain ⟨b1, hb1, e⟩ := built_ok h1
  subst e
  obtain ⟨s2, h2, h⟩ := bind_eq_ok h
  injection h with h; injection h with h; injection h with e1 e2; subst e1; subst e2
  obtain ⟨V, B⟩ := buildCl_variant (I := I0) (b := { s.b with vc := 0 }) (B := 2) (by omega) (std_cells hs.cells hI) (rebuilt_bok hs hc) hc hf hlow hb1
  rw [pushActive, hh] at h2
  have P := storeTerms_keep _ _ _ h2
  exact ⟨c1, variant_cells hs.cells V, B, P.active, P.passive, P.pos, P.neg, P.pos', P.neg', P.new⟩

/-! ## One turn of the loop -/

theorem turn (hp : cfg.pospref = false) (hhash : HashOK cfg M) (hA : Herb M I0.alg) {s s3 s4 : Sys} {c g1 g2 : Clause} {rest : List Clause}
    (hsat : Sat cfg M I0.alg cs s) (hq : s.passive = c :: rest)
    (hpl : ∀ d : Clause, d ∈ s3.active → d.Plain) (pg1 : g1.Plain)
    (V1 : Variant M I0.alg c g1) (B1 : ∀ l : Lit, l ∈ g1.lits → InBank 1 (vars l.atom))
    (V2 : Variant M I0.alg g1 g2) (B2 : ∀ l : Lit, l ∈ g2.lits → InBank 2 (vars l.atom))
    (h3 : Stored cfg g2 (chosen cfg false g2) { s with passive := rest, active := s.active ++ [g2] } s3)
    (h4 : Grown s3 s4) (hr : ∀ l : Lit, l ∈ chosen cfg false g1 → ∀ e : Nat × Term × Clause, e ∈ (if l.neg then s3.pos else s3.neg) →
      funHash cfg l.atom = .ok e.1 → Resolved M I0.alg l.atom g1 e.2.1 e.2.2 s4.passive) : Sat cfg M I0.alg cs s4 := by
  obtain ⟨lowc, hornc⟩ := hsat.low c (by rw [hq]; simp)
  have ha3 : s3.active = s.active ++ [g2] := h3.active
  have ha4 : s4.active = s.active ++ [g2] := h4.active.trans ha3
  have act : ∀ d : Clause, d ∈ s.active ++ [g2] → HornL d.lits ∧ ∀ l : Lit, l ∈ d.lits → InBank 2 (vars l.atom) := by
    intro d hd
    rcases List.mem_append.1 hd with hd | hd
    · exact hsat.act d hd
    · rw [List.mem_singleton.1 hd]; exact ⟨V2.horn (V1.horn hornc), B2⟩
  have tab : ∀ d : Clause, d ∈ s.active ++ [g2] → ∀ l : Lit, l ∈ chosen cfg false d → ∃ k, funHash cfg l.atom = .ok k ∧
      (k, l.atom, d) ∈ if l.neg then s3.neg else s3.pos := by
    intro d hd l hl
    rcases List.mem_append.1 hd with hd | hd
    · obtain ⟨k, h1, h2⟩ := hsat.tab d hd l hl
      refine ⟨k, h1, ?_⟩
      cases hn : l.neg with
      | true => rw [hn, if_pos rfl] at h2; exact h3.neg _ h2
      | false => rw [hn, if_neg (by simp)] at h2; exact h3.pos _ h2
    · rw [List.mem_singleton.1 hd] at hl ⊢; exact h3.new l hl
  have keeps : Keeps M I0.alg (s.passive ++ s.active) (s4.passive ++ s4.active) := by
    intro K m h
    rw [hq] at h
    have := keeps_head (d := g2) (act' := s.active ++ [g2]) (by simp) (fun e he => List.mem_append_left _ he)
      (Nat.le_of_eq (V2.length.trans V1.length)) (fun ρ => variant_cov (V1.trans V2) ρ) K m h
    refine this.sub fun d hd => ?_
    rcases List.mem_append.1 hd with hd | hd
    · refine List.mem_append_left _ (h4.keep d ?_)
      rw [h3.passive]; exact hd
    · rw [ha4]; exact List.mem_append_right _ hd
  have sub4 : ∀ {K m}, Cov M I0.alg s4.passive K m → Cov M I0.alg (s4.passive ++ s4.active) K m :=
    fun h => h.sub fun d hd => List.mem_append_left _ hd
  refine ⟨?_, by rw [ha4]; exact act, ?_, ?_, ?_, ?_, fun d hd ρ => keeps _ _ (hsat.inputs d hd ρ)⟩
  · intro d hd
    rcases h4.new d hd with h | h
    · rw [h3.passive] at h
      exact hsat.low d (by rw [hq]; exact List.mem_cons_of_mem _ h)
    · exact h
  · rw [ha4, h4.pos, h4.neg]; exact tab
  · intro e he
    rw [h4.pos] at he
    rw [ha4]
    rcases h3.pos' e he with h | h
    · exact List.mem_append_left _ (hsat.epos e h)
    · rw [h]; simp
  · intro e he
    rw [h4.neg] at he
    rw [ha4]
    rcases h3.neg' e he with h | h
    · exact List.mem_append_left _ (hsat.eneg e h)
    · rw [h]; simp
  · rw [ha4]
    intro P hP a ea d hd pre x post ed hpre σ τ hev
    have pP := hpl P (by rw [ha3]; exact hP)
    have pd := hpl d (by rw [ha3]; exact hd)
    have pa : Plain a := pP.2 ⟨false, a⟩ (by rw [ea]; simp)
    have px : Plain x := pd.2 ⟨true, x⟩ (by rw [ed]; simp)
    by_cases old : P ∈ s.active ∧ d ∈ s.active
    · rcases hsat.pairs P old.1 a ea d old.2 pre x post ed hpre σ τ hev with h | h
      · exact Or.inl h
      · have := keeps _ _ h
        rw [ha4] at this
        exact Or.inr this
    · by_cases hdg : d = g2
      · -- the given clause has the negative literal
        subst hdg
        obtain ⟨σ1, hσ1⟩ := V2.back σ
        rw [ed] at hσ1
        obtain ⟨pre1, x1, post1, e1, m1, m2, m3⟩ := meaning_split hσ1
        have px1 : Plain x1 := pg1.2 ⟨true, x1⟩ (by rw [e1]; simp)
        have hpre1 : ∀ l : Lit, l ∈ pre1 → l.neg = false := by
          intro l hl
          have : (l.neg, ev M I0.alg σ1 l.atom) ∈ meaning M I0.alg σ pre := by rw [m1]; exact meaning_mem hl
          obtain ⟨l', h1, h2⟩ := List.mem_map.1 this
          have := hpre l' h1
          injection h2 with h2 _
          rw [← h2]; exact this
        obtain ⟨k, hk, hkm⟩ := tab P hP ⟨false, a⟩ (chosen_unit ea)
        have R := hr ⟨true, x1⟩ (chosen_first hp e1 hpre1) (k, a, P) hkm
          ((hash_eq hhash hA px1 pa (m2.symm.trans hev.symm)).trans hk) (both σ1 τ) (by
            rw [both_one (B1 ⟨true, x1⟩ (by rw [e1]; simp)), both_two ((act P hP).2 ⟨false, a⟩ (by rw [ea]; simp))]
            exact m2.symm.trans hev.symm)
        have ml : pre1.length = pre.length ∧ post1.length = post.length := by
          have h1 := congrArg List.length m1
          have h2 := congrArg List.length m3
          simp only [meaning, List.length_map] at h1 h2
          exact ⟨h1.symm, h2.symm⟩
        have mm : meaning M I0.alg σ (pre ++ post) = meaning M I0.alg σ1 (pre1 ++ post1) := by
          simp only [meaning, List.map_append] at m1 m3 ⊢
          rw [m1, m3]
        rw [mm]
        have := said_cov R (K := meaning M I0.alg σ1 (pre1 ++ post1)) (m := pre.length + post.length)
          (fun p hp => rest_mem (P := P) (σ := σ1) e1 ea (plain_same px1) (plain_same pa) (fun l hl => both_one (B1 l hl)) hp)
          (by rw [e1, ea]; simp; omega)
        rcases this with h | h
        · exact Or.inl h
        · refine Or.inr ?_
          have := sub4 h
          rwa [ha4] at this
      · -- the given clause is the positive unit
        have hPg : P = g2 := by
          rcases List.mem_append.1 hP with h | h
          · rcases List.mem_append.1 hd with h' | h'
            · exact absurd ⟨h, h'⟩ old
            · exact absurd (List.mem_singleton.1 h') hdg
          · exact List.mem_singleton.1 h
        subst hPg
        obtain ⟨τ1, hτ1⟩ := V2.back τ
        have ea' : P.lits = [] ++ ⟨false, a⟩ :: [] := ea
        rw [ea'] at hτ1
        obtain ⟨pre1, a1, post1, e1, m1, m2, m3⟩ := meaning_split hτ1
        have z1 : pre1 = [] := by
          have := congrArg List.length m1
          simp only [meaning, List.length_map, List.length_nil] at this
          exact List.length_eq_zero_iff.1 this.symm
        have z2 : post1 = [] := by
          have := congrArg List.length m3
          simp only [meaning, List.length_map, List.length_nil] at this
          exact List.length_eq_zero_iff.1 this.symm
        subst z1; subst z2
        rw [List.nil_append] at e1
        have pa1 : Plain a1 := pg1.2 ⟨false, a1⟩ (by rw [e1]; simp)
        obtain ⟨k, hk, hkm⟩ := tab d hd ⟨true, x⟩ (chosen_first hp ed hpre)
        have R := hr ⟨false, a1⟩ (chosen_unit e1) (k, x, d) hkm
          ((hash_eq hhash hA pa1 px (m2.symm.trans hev)).trans hk) (both τ1 σ) (by
            rw [both_one (B1 ⟨false, a1⟩ (by rw [e1]; simp)), both_two ((act d hd).2 ⟨true, x⟩ (by rw [ed]; simp))]
            exact m2.symm.trans hev)
        have := said_cov R (K := meaning M I0.alg σ (pre ++ post)) (m := pre.length + post.length)
          (fun p hp => rest_mem (P := g1) (σ := σ) ed e1 (plain_same px) (plain_same pa1) (fun l hl => both_two ((act d hd).2 l hl)) hp.symm)
          (by rw [e1, ed]; simp; omega)
        rcases this with h | h
        · exact Or.inl h
        · refine Or.inr ?_
          have := sub4 h
          rwa [ha4] at this

theorem genloop_keep (hh : cfg.hyper = false) (hp : cfg.pospref = false) (hhash : HashOK cfg M) (hI : I0.Std cfg M) (hA : Herb M I0.alg) :
    ∀ (f : Nat) (s s' : Sys), PlainSys s → SysOK cfg M cs s → s.b.st = St.clear → Sat cfg M I0.alg cs s → genloop cfg f s = .ok (.finished, s') →
    PlainSys s' ∧ Sat cfg M I0.alg cs s' ∧ s'.passive = []
  | 0, _, _, _, _, _, _, h => by cases h
  | f + 1, s, s', hpl, hs, hc, hsat, h => by
    rw [genloop.eq_def] at h
    dsimp only at h
    cases hq : s.passive with
    | nil =>
      rw [hq] at h
      injection h with h; injection h with e1 e2; subst e2
      exact ⟨hpl, hsat, hq⟩
    | cons c rest =>
      rw [hq] at h
      simp only at h
      obtain ⟨⟨sub, st⟩, hsub, h⟩ := bind_eq_ok h
      obtain ⟨cf, cw⟩ := hs.passive c (by rw [hq]; simp)
      have cp := hpl.passive c (by rw [hq]; simp)
      obtain ⟨clow, chorn⟩ := hsat.low c (by rw [hq]; simp)
      rw [hc] at hsub
      have e := givenSubsumed_clear cf s.active sub st (fun d hd => (hs.active d hd).fine) hsub
      subst e
      have hs1 : SysOK cfg M cs { s with passive := rest, b := { s.b with st := St.clear } } := by
        have := sys_ext (s' := { s with b := { s.b with st := St.clear } }) hs
          ⟨Cells.rfl _, Nat.le_refl _, fun _ _ => rfl, hs.blank⟩ rfl rfl rfl rfl
        exact ⟨this.cells, this.blank, fun d hd => hs.passive d (by rw [hq]; simp [hd]), this.active, this.pos, this.neg⟩
      have p1 : PlainSys { s with passive := rest, b := { s.b with st := St.clear } } :=
        ⟨hpl.freed, fun d hd => hpl.passive d (by rw [hq]; simp [hd]), hpl.active, hpl.pos, hpl.neg⟩
      cases sub with
      | true =>
        simp only [if_true] at h
        obtain ⟨d, h1, h2, h3⟩ := givenSubsumed_cov (herb_cells hs.cells hA) cf cp s.active _
          (fun d hd => ⟨(hs.active d hd).fine, hpl.active d hd⟩) hsub
        have keeps : Keeps M I0.alg (s.passive ++ s.active) (rest ++ s.active) := by
          rw [hq]
          refine keeps_head h1 (fun e he => he) h2 fun ρ => ?_
          obtain ⟨ρ', h⟩ := h3 ρ
          refine ⟨ρ', fun l hl => ?_⟩
          have := h l hl
          rwa [ev_cells hs.cells, meaning_cells hs.cells] at this
        refine genloop_keep hh hp hhash hI hA f _ s' p1 hs1 rfl ⟨fun d hd => hsat.low d (by rw [hq]; exact List.mem_cons_of_mem _ hd), hsat.act,
          hsat.tab, hsat.epos, hsat.eneg, fun P hP a ea d hd pre x post ed hpre σ τ hev => ?_, fun d hd ρ => keeps _ _ (hsat.inputs d hd ρ)⟩ h
        rcases hsat.pairs P hP a ea d hd pre x post ed hpre σ τ hev with h | h
        · exact Or.inl h
        · exact Or.inr (keeps _ _ h)
      | false =>
        simp only [Bool.false_eq_true, if_false] at h
        unfold orStop at h
        obtain ⟨o, ho, h⟩ := bind_eq_ok h
        cases o with
        | none => injection h with h; injection h with e1 e2; cases e1
        | some o =>
          obtain ⟨given, s2⟩ := o
          obtain ⟨k1, k2, k3⟩ := processGiven_says hs1 rfl cf cw ho
          obtain ⟨V1, B1, a1, a2, a3, a4⟩ := processGiven_keep hI hs1 rfl cf clow ho
          obtain ⟨p2, pg⟩ := (processGiven_safe p1 hs1 rfl cf cp).2 _ ho _ rfl
          obtain ⟨o, ho, h⟩ := bind_eq_ok h
          cases o with
          | none => injection h with h; injection h with e1 e2; cases e1
          | some o =>
            obtain ⟨u, s3⟩ := o
            obtain ⟨j1, j2, j3⟩ := addActive_says k1 k2 k3 ho
            obtain ⟨g2, V2, B2, st3⟩ := addActive_keep hh hI k1 k2 k3.fine k3.low ho
            have p3 := (addActive_safe p2 k1 k2 k3.fine pg).2 _ ho _ rfl
            have st3' : Stored cfg g2 (chosen cfg false g2) { s with passive := rest, active := s.active ++ [g2] } s3 := by
              refine ⟨?_, ?_, ?_, ?_, ?_, ?_, st3.new⟩
              · rw [st3.active, a1]
              · rw [st3.passive, a2]
              · have := st3.pos; rw [a3] at this; exact this
              · have := st3.neg; rw [a4] at this; exact this
              · have := st3.pos'; rw [a3] at this; exact this
              · have := st3.neg'; rw [a4] at this; exact this
            obtain ⟨o, ho, h⟩ := bind_eq_ok h
            cases o with
            | none => injection h with h; injection h with e1 e2; cases e1
            | some o =>
              obtain ⟨p, s4⟩ := o
              have w3 := work_ext k1.blank j3 k3
              obtain ⟨S, S'⟩ := resolveAll_says f _ _ _ _ j1 j2 w3 ho
              have p4 := (resolveAll_safe hh f s3 given p3 j1 j2 w3 pg).2 _ ho _ rfl
              cases p with
              | true =>
                simp only [if_true] at h
                injection h with h; injection h with e1 e2; cases e1
              | false =>
                simp only [Bool.false_eq_true, if_false] at h
                have hact : ∀ d : Clause, d ∈ s3.active → HornL d.lits := by
                  intro d hd
                  rw [st3'.active] at hd
                  rcases List.mem_append.1 hd with hd | hd
                  · exact (hsat.act d hd).1
                  · rw [List.mem_singleton.1 hd]; exact V2.horn (V1.horn chorn)
                have hepos : ∀ e : Nat × Term × Clause, e ∈ s3.pos → HornL e.2.2.lits := by
                  intro e he
                  refine hact _ ?_
                  rw [st3'.active]
                  rcases st3'.pos' e he with h | h
                  · exact List.mem_append_left _ (hsat.epos e h)
                  · rw [h]; simp
                have heneg : ∀ e : Nat × Term × Clause, e ∈ s3.neg → HornL e.2.2.lits := by
                  intro e he
                  refine hact _ ?_
                  rw [st3'.active]
                  rcases st3'.neg' e he with h | h
                  · exact List.mem_append_left _ (hsat.eneg e h)
                  · rw [h]; simp
                obtain ⟨G, R⟩ := resolveAll_keep hh hI hA p3 j1 j2 w3 pg (V1.horn chorn) hepos heneg ho
                exact genloop_keep hh hp hhash hI hA f s4 s' p4 S.ok S'
                  (turn hp hhash hA hsat hq p3.active pg V1 B1 V2 B2 st3' G R) h

end

end WG.Reason
