import Verif.Reason.Back
import Verif.Reason.Props

/-! # One clause against the active ones: everything is derived -/
namespace WG.Reason

/-- At most one positive literal. -/
def HornL (ls : List Lit) : Prop := cnt (fun n => !n) ls ≤ 1

/-- Atoms stand for themselves, with their variables replaced. -/
structure Herb (M : Mem) (A : Alg Tree) : Prop where
  con : ∀ v, A.con v = .con v
  atom : ∀ x, Plain x → ∀ σ, ev M A σ x = ev M treeAlg σ x

/-- The queue has grown by Horn clauses, and nothing else has changed. -/
structure Grown (s s' : Sys) : Prop where
  active : s'.active = s.active
  pos : s'.pos = s.pos
  neg : s'.neg = s.neg
  keep : ∀ c : Clause, c ∈ s.passive → c ∈ s'.passive
  new : ∀ c : Clause, c ∈ s'.passive → c ∈ s.passive ∨ Low c.lits ∧ HornL c.lits

theorem Grown.refl (s : Sys) : Grown s s := ⟨rfl, rfl, rfl, fun _ h => h, fun _ h => Or.inl h⟩

theorem Grown.trans {s s' s'' : Sys} (h : Grown s s') (h' : Grown s' s'') : Grown s s'' :=
  ⟨h'.active.trans h.active, h'.pos.trans h.pos, h'.neg.trans h.neg, fun c hc => h'.keep c (h.keep c hc), fun c hc => by
    rcases h'.new c hc with h1 | h1
    · exact h.new c h1
    · exact Or.inr h1⟩

/-- For these values, what is left of the parents is true anyway, or one of the clauses says it. -/
def Said (M : Mem) (A : Alg Tree) (x : Term) (xcl : Clause) (y : Term) (ycl : Clause) (ds : List Clause) (σ : Nat → Tree) : Prop :=
  (∃ T, Rest M A σ x xcl y ycl (true, T) ∧ Rest M A σ x xcl y ycl (false, T)) ∨
  ∃ c : Clause, c ∈ ds ∧ (∃ ρ', ∀ k : Lit, k ∈ c.lits → Rest M A σ x xcl y ycl (k.neg, ev M A ρ' k.atom)) ∧
    c.lits.length + 2 ≤ xcl.lits.length + ycl.lits.length

theorem Said.mono {M : Mem} {A : Alg Tree} {x : Term} {xcl : Clause} {y : Term} {ycl : Clause} {ds ds' : List Clause} {σ : Nat → Tree}
    (h : Said M A x xcl y ycl ds σ) (hd : ∀ c : Clause, c ∈ ds → c ∈ ds') : Said M A x xcl y ycl ds' σ := by
  rcases h with h | ⟨c, h1, h2⟩
  · exact Or.inl h
  · exact Or.inr ⟨c, hd c h1, h2⟩

/-- All resolvents of two clauses, at these atoms. -/
def Resolved (M : Mem) (A : Alg Tree) (x : Term) (xcl : Clause) (y : Term) (ycl : Clause) (ds : List Clause) : Prop :=
  ∀ σ, ev M A σ x = ev M A σ y → Said M A x xcl y ycl ds σ

section
variable {cfg : Cfg} {M : Mem} {cs : List Clause} {I0 : Interp Tree}

theorem cleanup_mem (b : Bld) : b.cleanup.mem = b.mem := rfl

theorem finish_keep (hh : cfg.hyper = false) {again : Sys → Clause → Out Bool} {f : Nat} {s s' : Sys} {r : List Lit}
    (hb : Blank s.b.mem s.b.next) (hr : ∀ l : Lit, l ∈ r → Fine s.b.mem l.atom) (hlow : Low r) (hhorn : HornL r)
    (h : finish cfg f again r s = .ok (some (false, s'))) :
    Grown s s' ∧ ∃ c : Clause, c ∈ s'.passive ∧ Cells s.b.mem s'.b.mem ∧
      ∀ (A : Alg Tree) (ρ : Nat → Tree), meaning s'.b.mem A ρ c.lits = meaning s.b.mem A ρ r := by
  rw [finish] at h
  by_cases he : r = []
  · rw [if_pos he] at h
    injection h with h; injection h with h; injection h with e1 e2; cases e1
  · rw [if_neg he] at h
    obtain ⟨c, s1, h1, h⟩ := out_bind_ok h
    obtain ⟨b1, hb1, e⟩ := built_ok h1
    have C := copyRes_says hb hr hb1
    subst e
    rw [deliver, if_neg (by simp [hh])] at h
    injection h with h; injection h with h; injection h with e1 e2; subst e2
    have hm := C.eval Tree
    refine ⟨⟨rfl, rfl, rfl, fun c hc => List.mem_append_left _ hc, fun d hd => ?_⟩, c, by simp, C.ext.cells, hm⟩
    rcases List.mem_append.1 hd with hd | hd
    · exact Or.inl hd
    · rw [List.mem_singleton.1 hd]
      refine Or.inr ⟨C.low hlow, ?_⟩
      have e := congrArg (List.map Prod.fst) (hm treeAlg Tree.var)
      simp only [meaning, List.map_map] at e
      have key : ∀ ls : List Lit, cnt (fun n => !n) ls = (ls.map (Prod.fst ∘ fun l => (l.neg, ev s.b.mem treeAlg Tree.var l.atom))).countP fun n => !n := by
        intro ls; rw [List.countP_map]; rfl
      have key' : ∀ ls : List Lit, cnt (fun n => !n) ls = (ls.map (Prod.fst ∘ fun l => (l.neg, ev b1.mem treeAlg Tree.var l.atom))).countP fun n => !n := by
        intro ls; rw [List.countP_map]; rfl
      rw [HornL, key', e, ← key]
      exact hhorn

theorem processResult_keep (hh : cfg.hyper = false) (hI : I0.Std cfg M) {again : Sys → Clause → Out Bool} {f : Nat} {s s' : Sys} {x y : Term}
    {xcl ycl : Clause} {n : Bool} (hfl : FlatSt s.b.st) (hlow : LowSt 4000 s.b.st) (px : xcl.Plain) (py : ycl.Plain)
    (hs : SysOK cfg M cs s) (I : Inv s.b.mem s.b.st) (hd : ∀ n, 4000 ≤ n → s.b.st.bank n = none)
    (hx : Work cfg M cs s.b.mem xcl) (hy : Work cfg M cs s.b.mem ycl) (mx : ⟨n, x⟩ ∈ xcl.lits) (my : ⟨!n, y⟩ ∈ ycl.lits)
    (ax : ∃ a us, x = .app a us) (ay : ∃ a us, y = .app a us)
    (he : ∀ (D : Type) (A : Alg D) (ρ : Nat → D), Resp s.b.mem A ρ s.b.st → ev s.b.mem A ρ x = ev s.b.mem A ρ y)
    (ox : HornL xcl.lits) (oy : HornL ycl.lits) (h : processResult cfg f again x xcl y ycl s = .ok (some (false, s'))) :
    Grown s s' ∧ ∀ σ, Resp s.b.mem I0.alg σ s.b.st → Said M I0.alg x xcl y ycl s'.passive σ := by
  rw [processResult] at h
  by_cases hl : xcl.lits.length + ycl.lits.length = 2
  · rw [if_pos hl] at h
    injection h with h; injection h with h; injection h with e1 e2; cases e1
  · rw [if_neg hl] at h
    by_cases hq : Buf.derived ∈ s.freed
    · rw [if_pos hq] at h; cases h
    · rw [if_neg hq] at h
      by_cases hr : cfg.room s.b.next = true
      · rw [if_pos hr] at h
        obtain ⟨o, s1, h1, h⟩ := out_bind_ok h
        obtain ⟨b1, hb1, e⟩ := built_ok h1
        have hblank : Blank s.b.mem (s.b.next + 1) := fun a ha => hs.blank a (Nat.le_trans (Nat.le_succ _) ha)
        have hb0 : BOK { s.b with next := s.b.next + 1, vc := 0 } := ⟨I, hblank, hd, Nat.zero_le _⟩
        have hh0 : HighFree { s.b with next := s.b.next + 1, vc := 0 } := fun n t h v hv => (hlow n t h).2 v hv
        obtain ⟨g1, g2⟩ := auxBoth_back (Nat.le_refl 3) (b := { s.b with next := s.b.next + 1, vc := 0 }) hs.cells hb0 hfl hh0 hx.fine hy.fine px py
          hx.low hy.low hb1
        subst e
        cases o with
        | none =>
          simp only at h
          injection h with h; injection h with h; injection h with e1 e2; subst e2
          exact ⟨⟨rfl, rfl, rfl, fun _ h => h, fun _ h => Or.inl h⟩, fun σ hσ => Or.inl ((g2 Tree I0 σ hI hσ).2 rfl)⟩
        | some r =>
          simp only at h
          have k0 := g1 r rfl
          obtain ⟨k1, k2, k3, k4⟩ := auxBoth_says (build_says (Nat.le_refl 3) f) hb0 hx.fine hy.fine hx.clean hy.clean mx my ax ay he hb1
          have ux := fun p => cnt_uncut p xcl.lits mx (same_refl (hx.fine _ mx))
          have uy := fun p => cnt_uncut p ycl.lits my (same_refl (hy.fine _ my))
          have hhorn : HornL r := by
            have a1 := k0 fun n => !n
            have a2 := ux fun n => !n
            have a3 := uy fun n => !n
            unfold HornL at ox oy ⊢
            cases n <;> simp at a2 a3 <;> omega
          have hlen : r.length + 2 ≤ xcl.lits.length + ycl.lits.length := by
            have a1 := k0 fun _ => true
            have a2 := ux fun _ => true
            have a3 := uy fun _ => true
            simp only [cnt_true, if_true] at a1 a2 a3
            omega
          obtain ⟨F, c, hc, hcells, hmean⟩ := finish_keep hh k1.ext.blank k2 k3 hhorn h
          refine ⟨⟨F.active, F.pos, F.neg, F.keep, F.new⟩, fun σ hσ => Or.inr ⟨c, hc, ?_, ?_⟩⟩
          · obtain ⟨ρ', hρ'⟩ := (g2 Tree I0 σ hI hσ).1 r rfl
            refine ⟨ρ', fun k hk => ?_⟩
            have e := hmean I0.alg ρ'
            have c1 : Cells M b1.mem := hs.cells.trans k1.ext.cells
            have e : meaning M I0.alg ρ' c.lits = meaning M I0.alg ρ' r := by
              rw [← meaning_cells (c1.trans hcells), e]; exact meaning_cells c1 _ _ _
            have hk' : (k.neg, ev M I0.alg ρ' k.atom) ∈ meaning M I0.alg ρ' r := by
              rw [← e]; exact List.mem_map_of_mem hk
            obtain ⟨k', h1, h2⟩ := List.mem_map.1 hk'
            rw [← h2]
            exact hρ' k' h1
          · have e := congrArg List.length (hmean I0.alg Tree.var)
            simp only [meaning, List.length_map] at e
            omega
      · rw [if_neg hr] at h; cases h

theorem low_ev {A : Alg Tree} (hA : Herb M A) {t : Term} (ht : t.isRec = false) (σ : Nat → Tree) : ev M A σ t = ev M treeAlg σ t := by
  cases t with
  | var n => rfl
  | con c => exact hA.con _
  | nul => cases ht
  | app a ts => cases ht

theorem herb_cells {M M' : Mem} {A : Alg Tree} (hc : Cells M M') (hA : Herb M A) : Herb M' A :=
  ⟨hA.con, fun x hx σ => by rw [ev_cells hc, ev_cells hc]; exact hA.atom x hx σ⟩

theorem nodeLoop_keep (hh : cfg.hyper = false) (hI : I0.Std cfg M) (hA : Herb M I0.alg) {f f' : Nat} {x : Term} {xcl : Clause} {n : Bool}
    (mx : ⟨n, x⟩ ∈ xcl.lits) (ax : ∃ a us, x = .app a us) (px : xcl.Plain) (ox : HornL xcl.lits) :
    ∀ (ns : List (Nat × Term × Clause)) (s : Sys) (s' : Sys), PlainSys s → SysOK cfg M cs s → s.b.st = St.clear →
    Work cfg M cs s.b.mem xcl → (∀ e, e ∈ ns → Entry cfg M cs s.b.mem (!n) e) → (∀ e : Nat × Term × Clause, e ∈ ns → e.2.2.Plain) →
    (∀ e : Nat × Term × Clause, e ∈ ns → HornL e.2.2.lits) →
    nodeLoop f (fun y ycl => processResult cfg f (resolveAll cfg f') x xcl y ycl) x ns s = .ok (some (false, s')) →
    Grown s s' ∧ ∀ e : Nat × Term × Clause, e ∈ ns → Resolved M I0.alg x xcl e.2.1 e.2.2 s'.passive
  | [], s, s', _, _, _, _, _, _, _, h => by
    injection h with h; injection h with h; injection h with e1 e2; subst e2
    exact ⟨.refl s, fun e he => by cases he⟩
  | (h0, y, ycl) :: ns, s, s', hp, hs, hc, hx, hns, hpl, hhn, h => by
    rw [nodeLoop] at h
    obtain ⟨⟨u, st⟩, hu, h⟩ := bind_eq_ok h
    rw [hc] at hu
    have E := hns (h0, y, ycl) (by simp)
    have py := hpl (h0, y, ycl) (by simp)
    have oy := hhn (h0, y, ycl) (by simp)
    have fx := hx.fine _ mx
    have fy := E.work.fine _ E.mem
    have P := unify_post f _ _ _ _ _ (inv_clear s.b.mem) fx fy hu
    have hfl : FlatSt st := unifyAtom_flat (s := St.clear) (fun n t h => by cases h) (px.2 _ mx).flat (py.2 _ E.mem).flat hu
    have hlow : LowSt 4000 st := unifyAtom_low (s := St.clear) (fun n t h => by cases h) (px.2 _ mx).flat (py.2 _ E.mem).flat
      (fun v hv => hx.low _ mx v hv) (fun v hv => E.work.low _ E.mem v hv) hu
    have hA1 := herb_cells hs.cells hA
    have hunify : ∀ σ, ev M I0.alg σ x = ev M I0.alg σ y → u = true ∧ Resp s.b.mem I0.alg σ st := by
      intro σ hσ
      rw [← ev_cells hs.cells, ← ev_cells hs.cells (t := y), hA1.atom x (px.2 _ mx), hA1.atom y (py.2 _ E.mem)] at hσ
      obtain ⟨h1, h2⟩ := P.complete Tree treeAlg σ treeFree (fun n t h => by cases h) hσ
      refine ⟨h1, fun n t hn => ?_⟩
      rw [low_ev hA1 (hfl n t hn)]
      exact h2 n t hn
    have next : ∀ s1 : Sys, PlainSys s1 → Ext s.b s1.b → SysOK cfg M cs s1 → Covers s1.b.st →
        nodeLoop f (fun y ycl => processResult cfg f (resolveAll cfg f') x xcl y ycl) x ns s1.clearVars = .ok (some (false, s')) →
        Grown s1 s' ∧ ∀ e : Nat × Term × Clause, e ∈ ns → Resolved M I0.alg x xcl e.2.1 e.2.2 s'.passive := by
      intro s1 p1 e1 hs1 hv1 h1
      have hs2 : SysOK cfg M cs s1.clearVars := sys_ext hs1 ⟨Cells.rfl _, Nat.le_refl _, fun _ _ => rfl, hs1.blank⟩ rfl rfl rfl rfl
      have := nodeLoop_keep hh hI hA mx ax px ox ns s1.clearVars s' ⟨p1.freed, p1.passive, p1.active, p1.pos, p1.neg⟩ hs2 hv1.clear
        (work_ext hs.blank e1 hx) (fun e he => by
          have E := hns e (by simp [he])
          exact ⟨work_ext hs.blank e1 E.work, E.mem, E.app⟩) (fun e he => hpl e (by simp [he])) (fun e he => hhn e (by simp [he])) h1
      exact ⟨⟨this.1.active, this.1.pos, this.1.neg, this.1.keep, this.1.new⟩, this.2⟩
    have hs1 : SysOK cfg M cs { s with b := { s.b with st := st } } :=
      sys_ext hs ⟨Cells.rfl _, Nat.le_refl _, fun _ _ => rfl, hs.blank⟩ rfl rfl rfl rfl
    have e1 : Ext s.b { s.b with st := st } := ⟨Cells.rfl _, Nat.le_refl _, fun _ _ => rfl, hs.blank⟩
    have p1 : PlainSys { s with b := { s.b with st := st } } := ⟨hp.freed, hp.passive, hp.active, hp.pos, hp.neg⟩
    cases u with
    | false =>
      simp only [Bool.false_eq_true, if_false] at h
      obtain ⟨N1, N2⟩ := next _ p1 e1 hs1 P.inv.covers h
      refine ⟨⟨N1.active, N1.pos, N1.neg, N1.keep, N1.new⟩, fun e he => ?_⟩
      rcases List.mem_cons.1 he with he | he
      · subst he
        intro σ hσ
        have := (hunify σ hσ).1
        cases this
      · exact N2 e he
    | true =>
      simp only [if_true] at h
      obtain ⟨q, s2, h2, h⟩ := out_bind_ok h
      have hd : ∀ m, 4000 ≤ m → st.bank m = none := fun m hm => unify_dom fx fy hu (fun hv => by have := hx.low _ mx m hv; omega)
        (fun hv => by have := E.work.low _ E.mem m hv; omega)
      have S := processResult_says (resolveAll_says f') hs1 P.inv hd hx E.work mx E.mem ax E.app (fun D A ρ hR => P.sound rfl D A ρ hR) h2
      have S2 := (processResult_safe hh p1 hfl px py hs1 P.inv hd hx E.work mx E.mem ax E.app (fun D A ρ hR => P.sound rfl D A ρ hR)).2 _ h2 _ rfl
      cases q with
      | true =>
        rw [if_pos rfl] at h
        injection h with h; injection h with h; injection h with e1 e2; cases e1
      | false =>
        simp only [Bool.false_eq_true, if_false] at h
        obtain ⟨G, K⟩ := processResult_keep hh hI hfl hlow px py hs1 P.inv hd hx E.work mx E.mem ax E.app
          (fun D A ρ hR => P.sound rfl D A ρ hR) ox oy h2
        obtain ⟨N1, N2⟩ := next _ S2 (e1.trans S.ext) S.ok S.covers h
        have G' := G.trans N1
        refine ⟨⟨G'.active, G'.pos, G'.neg, G'.keep, G'.new⟩, fun e he => ?_⟩
        rcases List.mem_cons.1 he with he | he
        · subst he
          intro σ hσ
          exact (K σ (hunify σ hσ).2).mono N1.keep
        · exact N2 e he

theorem litLoop_keep (hh : cfg.hyper = false) (hI : I0.Std cfg M) (hA : Herb M I0.alg) {f f' : Nat} {xcl : Clause} (px : xcl.Plain)
    (ox : HornL xcl.lits) : ∀ (ls : List Lit) (s : Sys) (s' : Sys), PlainSys s → SysOK cfg M cs s → s.b.st = St.clear →
    Work cfg M cs s.b.mem xcl → (∀ l : Lit, l ∈ ls → l ∈ xcl.lits) → (∀ e : Nat × Term × Clause, e ∈ s.pos → HornL e.2.2.lits) →
    (∀ e : Nat × Term × Clause, e ∈ s.neg → HornL e.2.2.lits) →
    litLoop cfg f (fun x y ycl => processResult cfg f (resolveAll cfg f') x xcl y ycl) ls s = .ok (some (false, s')) →
    Grown s s' ∧ ∀ l : Lit, l ∈ ls → ∀ e : Nat × Term × Clause, e ∈ (if l.neg then s.pos else s.neg) → funHash cfg l.atom = .ok e.1 →
      Resolved M I0.alg l.atom xcl e.2.1 e.2.2 s'.passive
  | [], s, s', _, _, _, _, _, _, _, h => by
    injection h with h; injection h with h; injection h with e1 e2; subst e2
    exact ⟨.refl s, fun l hl => by cases hl⟩
  | l :: ls, s, s', hp, hs, hc, hx, hls, hop, hon, h => by
    have hl := hls l (by simp)
    rw [litLoop] at h
    obtain ⟨k, hk, h⟩ := bind_eq_ok h
    obtain ⟨q, s1, h1, h⟩ := out_bind_ok h
    have ent : ∀ e, e ∈ (if l.neg then s.pos else s.neg).filter (fun n => n.1 == k) →
        Entry cfg M cs s.b.mem (!l.neg) e ∧ e.2.2.Plain ∧ HornL e.2.2.lits := by
      intro e he
      have he := (List.mem_filter.1 he).1
      cases hn : l.neg with
      | true => rw [hn, if_pos rfl] at he; exact ⟨hs.pos e he, hp.pos e he, hop e he⟩
      | false => rw [hn, if_neg (by simp)] at he; exact ⟨hs.neg e he, hp.neg e he, hon e he⟩
    cases q with
    | true =>
      rw [if_pos rfl] at h
      injection h with h; injection h with h; injection h with e1 e2; cases e1
    | false =>
      rw [if_neg (by simp)] at h
      have ax := funHash_app hk
      have N := nodeLoop_says (n := l.neg) hl ax
        (fun y ycl s p s' a1 a2 a3 a4 a5 a6 a7 a8 a9 => processResult_says (resolveAll_says f') a1 a2 a3 a4 a5 hl a6 ax a7 a8 a9)
        _ s false s1 hs hc hx (fun e he => (ent e he).1) h1
      have N2 := (nodeLoop_safe (n := l.neg) (M := M) (cs := cs) hl ax px
        (fun y ycl s a1 a2 a3 a4 a5 a6 a7 a8 a9 a10 a11 =>
          (processResult_safe hh a1 a2 px a3 a4 a5 a6 a7 a8 hl a9 ax a10 a11).mono fun p e P =>
            ⟨P, processResult_says (resolveAll_says f') a4 a5 a6 a7 a8 hl a9 ax a10 a11 e⟩)
        _ s hp hs hc hx (fun e he => (ent e he).1) (fun e he => (ent e he).2.1)).2 _ h1 _ rfl
      obtain ⟨G, K⟩ := nodeLoop_keep hh hI hA (n := l.neg) hl ax px ox _ s s1 hp hs hc hx (fun e he => (ent e he).1)
        (fun e he => (ent e he).2.1) (fun e he => (ent e he).2.2) h1
      obtain ⟨G2, K2⟩ := litLoop_keep hh hI hA px ox ls s1 s' N2 N.1.ok N.2 (work_ext hs.blank N.1.ext hx) (fun l h => hls l (by simp [h]))
        (by rw [G.pos]; exact hop) (by rw [G.neg]; exact hon) h
      refine ⟨G.trans G2, fun l' hl' e he hf => ?_⟩
      rcases List.mem_cons.1 hl' with e' | hl'
      · subst e'
        rw [hk] at hf
        injection hf with hf
        intro σ hσ
        exact (K e (List.mem_filter.2 ⟨he, by simp [hf]⟩) σ hσ).mono G2.keep
      · refine K2 l' hl' e ?_ hf
        rw [G.pos, G.neg]; exact he

theorem resolveAll_keep (hh : cfg.hyper = false) (hI : I0.Std cfg M) (hA : Herb M I0.alg) {f : Nat} {s s' : Sys} {c : Clause}
    (hp : PlainSys s) (hs : SysOK cfg M cs s) (hc : s.b.st = St.clear) (hw : Work cfg M cs s.b.mem c) (pc : c.Plain) (oc : HornL c.lits)
    (hop : ∀ e : Nat × Term × Clause, e ∈ s.pos → HornL e.2.2.lits) (hon : ∀ e : Nat × Term × Clause, e ∈ s.neg → HornL e.2.2.lits)
    (h : resolveAll cfg f s c = .ok (some (false, s'))) :
    Grown s s' ∧ ∀ l : Lit, l ∈ chosen cfg false c → ∀ e : Nat × Term × Clause, e ∈ (if l.neg then s.pos else s.neg) →
      funHash cfg l.atom = .ok e.1 → Resolved M I0.alg l.atom c e.2.1 e.2.2 s'.passive := by
  cases f with
  | zero => cases h
  | succ f =>
    rw [resolveAll] at h
    exact litLoop_keep hh hI hA pc oc _ s s' hp hs hc hw (fun l => chosen_mem) hop hon h

end

end WG.Reason
