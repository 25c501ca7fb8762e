import Verif.Reason.Safe

/-! # The search on plain clauses is safe -/
namespace WG.Reason

/-- Nothing has been freed, and all clauses are plain. -/
structure PlainSys (s : Sys) : Prop where
  freed : s.freed = []
  passive : ∀ c : Clause, c ∈ s.passive → c.Plain
  active : ∀ c : Clause, c ∈ s.active → c.Plain
  pos : ∀ e : Nat × Term × Clause, e ∈ s.pos → e.2.2.Plain
  neg : ∀ e : Nat × Term × Clause, e ∈ s.neg → e.2.2.Plain

theorem OSafe.out {α β : Type} {x : Out α} {k : α → Sys → Out β} {Q : α × Sys → Prop} {Q' : β × Sys → Prop} (h : OSafe x Q)
    (hk : ∀ a s, x = .ok (some (a, s)) → Q (a, s) → OSafe (k a s) Q') : OSafe (Out.bind x k) Q' :=
  OSafe.bind h rfl fun p e hp => hk p.1 p.2 e hp

theorem built_safe {α : Type} {s : Sys} {r : Res (Option (α × Bld))} {Q : α × Bld → Prop} (hf : s.freed = []) (h : OSafe r Q) :
    OSafe (s.built r) fun p => ∃ b', r = .ok (some (p.1, b')) ∧ p.2 = { s with b := b' } ∧ Q (p.1, b') := by
  rw [Sys.built, if_neg (by rw [hf]; simp)]
  refine OSafe.bind h rfl fun p e hp => ?_
  exact osafe_some ⟨p.2, e, rfl, hp⟩

section
variable {cfg : Cfg} {M : Mem} {cs : List Clause}

theorem deliver_safe (hh : cfg.hyper = false) {again : Sys → Clause → Out Bool} {stored : Buf} {s : Sys} {c : Clause} (hs : PlainSys s)
    (hc : c.Plain) : OSafe (deliver cfg again stored s c) fun p => PlainSys p.2 := by
  rw [deliver, if_neg (by simp [hh])]
  refine osafe_some ⟨hs.freed, fun d hd => ?_, hs.active, hs.pos, hs.neg⟩
  rcases List.mem_append.1 hd with hd | hd
  · exact hs.passive d hd
  · rw [List.mem_singleton.1 hd]; exact hc

theorem finish_safe (hh : cfg.hyper = false) {again : Sys → Clause → Out Bool} {f : Nat} {s : Sys} {r : List Lit} (hs : PlainSys s)
    (hb : Blank s.b.mem s.b.next) (hr : ∀ l : Lit, l ∈ r → Fine s.b.mem l.atom) (hp : ∀ l : Lit, l ∈ r → Plain l.atom) :
    OSafe (finish cfg f again r s) fun p => PlainSys p.2 := by
  rw [finish]
  by_cases he : r = []
  · rw [if_pos he]; exact osafe_some hs
  · rw [if_neg he]
    refine OSafe.out (built_safe hs.freed (copyRes_plain hb hr he hp)) fun c s1 _ h1 => ?_
    obtain ⟨b1, _, e, hc⟩ := h1
    simp only at e hc
    subst e
    exact deliver_safe hh ⟨hs.freed, hs.passive, hs.active, hs.pos, hs.neg⟩ hc

theorem processResult_safe (hh : cfg.hyper = false) {again : Sys → Clause → Out Bool} {f : Nat} {s : Sys} {x y : Term}
    {xcl ycl : Clause} {n : Bool} (hp : PlainSys s) (hfl : FlatSt s.b.st) (px : xcl.Plain) (py : ycl.Plain)
    (hs : SysOK cfg M cs s) (I : Inv s.b.mem s.b.st) (hd : ∀ n, 4000 ≤ n → s.b.st.bank n = none)
    (hx : Work cfg M cs s.b.mem xcl) (hy : Work cfg M cs s.b.mem ycl) (mx : ⟨n, x⟩ ∈ xcl.lits) (my : ⟨!n, y⟩ ∈ ycl.lits)
    (ax : ∃ a us, x = .app a us) (ay : ∃ a us, y = .app a us)
    (he : ∀ (D : Type) (A : Alg D) (ρ : Nat → D), Resp s.b.mem A ρ s.b.st → ev s.b.mem A ρ x = ev s.b.mem A ρ y) :
    OSafe (processResult cfg f again x xcl y ycl s) fun p => PlainSys p.2 := by
  rw [processResult]
  by_cases hl : xcl.lits.length + ycl.lits.length = 2
  · rw [if_pos hl]; exact osafe_some hp
  · rw [if_neg hl, if_neg (by rw [hp.freed]; simp)]
    by_cases hr : cfg.room s.b.next = true
    · rw [if_pos hr]
      have hblank : Blank s.b.mem (s.b.next + 1) := fun a ha => hs.blank a (Nat.le_trans (Nat.le_succ _) ha)
      have hb0 : BOK { s.b with next := s.b.next + 1, vc := 0 } := ⟨I, hblank, hd, Nat.zero_le _⟩
      refine OSafe.out (built_safe hp.freed (auxBoth_safe (Nat.le_refl 3) hb0 hfl hx.fine hy.fine px py)) fun o s1 _ h1 => ?_
      obtain ⟨b1, hb1, e, hq⟩ := h1
      simp only at e hq hb1
      subst e
      cases o with
      | none => exact osafe_some ⟨hp.freed, hp.passive, hp.active, hp.pos, hp.neg⟩
      | some r =>
        obtain ⟨g1, g2, g3, g4⟩ := auxBoth_says (build_says (Nat.le_refl 3) f) hb0 hx.fine hy.fine hx.clean hy.clean mx my ax ay he hb1
        exact finish_safe hh ⟨hp.freed, hp.passive, hp.active, hp.pos, hp.neg⟩ g1.ext.blank g2 (hq r rfl)
    · rw [if_neg hr]; exact osafe_none

theorem nodeLoop_safe {f : Nat} {pr : Term → Clause → Sys → Out Bool} {x : Term} {xcl : Clause} {n : Bool} (mx : ⟨n, x⟩ ∈ xcl.lits)
    (ax : ∃ a us, x = .app a us) (px : xcl.Plain)
    (hpr : ∀ y ycl s, PlainSys s → FlatSt s.b.st → ycl.Plain → SysOK cfg M cs s → Inv s.b.mem s.b.st →
      (∀ n, 4000 ≤ n → s.b.st.bank n = none) →
      Work cfg M cs s.b.mem xcl → Work cfg M cs s.b.mem ycl → ⟨!n, y⟩ ∈ ycl.lits → (∃ a us, y = .app a us) →
      (∀ (D : Type) (A : Alg D) (ρ : Nat → D), Resp s.b.mem A ρ s.b.st → ev s.b.mem A ρ x = ev s.b.mem A ρ y) →
      OSafe (pr y ycl s) fun p => PlainSys p.2 ∧ Step cfg M cs s p.1 p.2) :
    ∀ (ns : List (Nat × Term × Clause)) (s : Sys), PlainSys s → SysOK cfg M cs s → s.b.st = St.clear →
    Work cfg M cs s.b.mem xcl → (∀ e, e ∈ ns → Entry cfg M cs s.b.mem (!n) e) → (∀ e : Nat × Term × Clause, e ∈ ns → e.2.2.Plain) →
    OSafe (nodeLoop f pr x ns s) fun p => PlainSys p.2
  | [], s, hp, _, _, _, _, _ => osafe_some hp
  | (h0, y, ycl) :: ns, s, hp, hs, hc, hx, hns, hpl => by
    rw [nodeLoop, hc]
    have E := hns (h0, y, ycl) (by simp)
    have py := hpl (h0, y, ycl) (by simp)
    have fx := hx.fine _ mx
    have fy := E.work.fine _ E.mem
    have next : ∀ s1 : Sys, PlainSys s1 → Ext s.b s1.b → SysOK cfg M cs s1 → Covers s1.b.st →
        OSafe (nodeLoop f pr x ns s1.clearVars) fun p => PlainSys p.2 := by
      intro s1 p1 e1 hs1 hv1
      have hs2 : SysOK cfg M cs s1.clearVars := sys_ext hs1 ⟨Cells.rfl _, Nat.le_refl _, fun _ _ => rfl, hs1.blank⟩ rfl rfl rfl rfl
      exact nodeLoop_safe mx ax px hpr ns s1.clearVars ⟨p1.freed, p1.passive, p1.active, p1.pos, p1.neg⟩ hs2 hv1.clear
        (work_ext hs.blank e1 hx) (fun e he => by
          have E := hns e (by simp [he])
          exact ⟨work_ext hs.blank e1 E.work, E.mem, E.app⟩) (fun e he => hpl e (by simp [he]))
    refine Safe.bind (Q := fun r => FlatSt r.2)
      ⟨unify_ne_bad f _ _ _ (inv_clear s.b.mem) fx fy, fun r hu => unifyAtom_flat (s := St.clear) (fun n t h => by cases h)
        (px.2 _ mx).flat (py.2 _ E.mem).flat hu⟩ fun r hu hfl => ?_
    obtain ⟨u, st⟩ := r
    have P := unify_post f _ _ _ _ _ (inv_clear s.b.mem) fx fy hu
    have hs1 : SysOK cfg M cs { s with b := { s.b with st := st } } :=
      sys_ext hs ⟨Cells.rfl _, Nat.le_refl _, fun _ _ => rfl, hs.blank⟩ rfl rfl rfl rfl
    have e1 : Ext s.b { s.b with st := st } := ⟨Cells.rfl _, Nat.le_refl _, fun _ _ => rfl, hs.blank⟩
    have p1 : PlainSys { s with b := { s.b with st := st } } := ⟨hp.freed, hp.passive, hp.active, hp.pos, hp.neg⟩
    cases u with
    | false =>
      simp only [Bool.false_eq_true, if_false]
      exact next _ p1 e1 hs1 P.inv.covers
    | true =>
      simp only [if_true]
      refine OSafe.out (hpr y ycl { s with b := { s.b with st := st } } p1 hfl py hs1 P.inv
        (fun m hm => unify_dom fx fy hu (fun hv => by have := hx.low _ mx m hv; omega)
          (fun hv => by have := E.work.low _ E.mem m hv; omega)) hx E.work E.mem E.app (fun D A ρ hR => P.sound rfl D A ρ hR))
        fun q s2 _ h2 => ?_
      obtain ⟨p2, S⟩ := h2
      simp only at p2 S
      cases q with
      | false =>
        simp only [Bool.false_eq_true, if_false]
        exact next _ p2 (e1.trans S.ext) S.ok S.covers
      | true =>
        rw [if_pos rfl]
        exact osafe_some ⟨p2.freed, p2.passive, p2.active, p2.pos, p2.neg⟩

theorem funHash_plain {t : Term} (h : Plain t) : ∃ k, funHash cfg t = .ok k := by
  cases h with
  | app _ _ _ => exact ⟨_, rfl⟩

theorem litLoop_safe {f : Nat} {pr : Term → Term → Clause → Sys → Out Bool} {xcl : Clause} (px : xcl.Plain)
    (hpr : ∀ n x y ycl s, PlainSys s → FlatSt s.b.st → ycl.Plain → SysOK cfg M cs s → Inv s.b.mem s.b.st →
      (∀ n, 4000 ≤ n → s.b.st.bank n = none) →
      Work cfg M cs s.b.mem xcl → Work cfg M cs s.b.mem ycl → ⟨n, x⟩ ∈ xcl.lits → ⟨!n, y⟩ ∈ ycl.lits → (∃ a us, x = .app a us) →
      (∃ a us, y = .app a us) →
      (∀ (D : Type) (A : Alg D) (ρ : Nat → D), Resp s.b.mem A ρ s.b.st → ev s.b.mem A ρ x = ev s.b.mem A ρ y) →
      OSafe (pr x y ycl s) fun p => PlainSys p.2 ∧ Step cfg M cs s p.1 p.2)
    (hsay : ∀ n x y ycl s p s', SysOK cfg M cs s → Inv s.b.mem s.b.st → (∀ n, 4000 ≤ n → s.b.st.bank n = none) →
      Work cfg M cs s.b.mem xcl → Work cfg M cs s.b.mem ycl → ⟨n, x⟩ ∈ xcl.lits → ⟨!n, y⟩ ∈ ycl.lits → (∃ a us, x = .app a us) →
      (∃ a us, y = .app a us) →
      (∀ (D : Type) (A : Alg D) (ρ : Nat → D), Resp s.b.mem A ρ s.b.st → ev s.b.mem A ρ x = ev s.b.mem A ρ y) →
      pr x y ycl s = .ok (some (p, s')) → Step cfg M cs s p s') :
    ∀ (ls : List Lit) (s : Sys), PlainSys s → SysOK cfg M cs s → s.b.st = St.clear →
    Work cfg M cs s.b.mem xcl → (∀ l : Lit, l ∈ ls → l ∈ xcl.lits) → OSafe (litLoop cfg f pr ls s) fun p => PlainSys p.2
  | [], s, hp, _, _, _, _ => osafe_some hp
  | l :: ls, s, hp, hs, hc, hx, hls => by
    have hl := hls l (by simp)
    obtain ⟨k, hk⟩ := funHash_plain (cfg := cfg) (px.2 l hl)
    rw [litLoop, hk, bind_ok]
    have ent : ∀ e, e ∈ (if l.neg then s.pos else s.neg).filter (fun n => n.1 == k) → Entry cfg M cs s.b.mem (!l.neg) e ∧ e.2.2.Plain := by
      intro e he
      have he := (List.mem_filter.1 he).1
      cases hn : l.neg with
      | true => rw [hn, if_pos rfl] at he; exact ⟨hs.pos e he, hp.pos e he⟩
      | false => rw [hn, if_neg (by simp)] at he; exact ⟨hs.neg e he, hp.neg e he⟩
    refine OSafe.out (nodeLoop_safe (n := l.neg) hl (funHash_app hk) px
      (fun y ycl s a0 a1 a2 a3 a4 a5 a6 a7 a8 a9 a10 => hpr l.neg l.atom y ycl s a0 a1 a2 a3 a4 a5 a6 a7 hl a8 (funHash_app hk) a9 a10)
      _ s hp hs hc hx (fun e he => (ent e he).1) (fun e he => (ent e he).2)) fun q s1 h1 p1 => ?_
    cases q with
    | true => rw [if_pos rfl]; exact osafe_some p1
    | false =>
      rw [if_neg (by simp)]
      have N := nodeLoop_says (n := l.neg) hl (funHash_app hk)
        (fun y ycl s p s' a1 a2 a3 a4 a5 a6 a7 a8 a9 => hsay l.neg l.atom y ycl s p s' a1 a2 a3 a4 a5 hl a6 (funHash_app hk) a7 a8 a9)
        _ s false s1 hs hc hx (fun e he => (ent e he).1) h1
      exact litLoop_safe px hpr hsay ls s1 p1 N.1.ok N.2 (work_ext hs.blank N.1.ext hx) (fun l h => hls l (by simp [h]))

theorem resolveAll_safe (hh : cfg.hyper = false) : ∀ (f : Nat) (s : Sys) (c : Clause), PlainSys s → SysOK cfg M cs s →
    s.b.st = St.clear → Work cfg M cs s.b.mem c → c.Plain → OSafe (resolveAll cfg f s c) fun p => PlainSys p.2
  | 0, _, _, _, _, _, _, _ => safe_out
  | f + 1, s, c, hp, hs, hc, hw, pc => by
    rw [resolveAll]
    refine litLoop_safe (M := M) (cs := cs) (xcl := c) pc (fun n x y ycl s a1 a2 a3 a4 a5 a6 a7 a8 a9 a10 a11 a12 a13 => ?_)
      (fun n x y ycl s p s' a1 a2 a3 a4 a5 a6 a7 a8 a9 a10 a11 =>
        processResult_says (resolveAll_says f) a1 a2 a3 a4 a5 a6 a7 a8 a9 a10 a11) _ s hp hs hc hw (fun l => chosen_mem)
    exact (processResult_safe hh a1 a2 pc a3 a4 a5 a6 a7 a8 a9 a10 a11 a12 a13).mono fun p e P =>
      ⟨P, processResult_says (resolveAll_says f) a4 a5 a6 a7 a8 a9 a10 a11 a12 a13 e⟩

theorem storeTerms_safe {c : Clause} (pc : c.Plain) : ∀ (ls : List Lit) (s : Sys), PlainSys s → (∀ l : Lit, l ∈ ls → l ∈ c.lits) →
    Safe (storeTerms cfg c ls s) fun s' => PlainSys s'
  | [], s, hp, _ => safe_ok hp
  | l :: ls, s, hp, hls => by
    obtain ⟨k, hk⟩ := funHash_plain (cfg := cfg) (pc.2 l (hls l (by simp)))
    rw [storeTerms, hk, bind_ok]
    by_cases hn : l.neg = true
    · rw [if_pos hn]
      refine storeTerms_safe pc ls { s with neg := (k, l.atom, c) :: s.neg } ⟨hp.freed, hp.passive, hp.active, hp.pos, fun e he => ?_⟩
        fun l h => hls l (by simp [h])
      rcases List.mem_cons.1 he with he | he
      · subst he; exact pc
      · exact hp.neg e he
    · rw [if_neg hn]
      refine storeTerms_safe pc ls { s with pos := (k, l.atom, c) :: s.pos } ⟨hp.freed, hp.passive, hp.active, fun e he => ?_, hp.neg⟩
        fun l h => hls l (by simp [h])
      rcases List.mem_cons.1 he with he | he
      · subst he; exact pc
      · exact hp.pos e he

theorem rebuilt_bok {s : Sys} (hs : SysOK cfg M cs s) (hc : s.b.st = St.clear) : BOK { s.b with vc := 0 } :=
  sys_bok (s := { s with b := { s.b with vc := 0 } })
    (sys_ext hs ⟨Cells.rfl _, Nat.le_refl _, fun _ _ => rfl, hs.blank⟩ rfl rfl rfl rfl) hc (Nat.zero_le _)

theorem flat_clear {s : Sys} (hc : s.b.st = St.clear) : FlatSt s.b.st := by
  rw [hc]; intro n t h; cases h

theorem processGiven_safe {f : Nat} {s : Sys} {c : Clause} (hp : PlainSys s) (hs : SysOK cfg M cs s) (hc : s.b.st = St.clear)
    (hf : c.Fine s.b.mem) (pc : c.Plain) : OSafe (processGiven cfg f s c) fun p => PlainSys p.2 ∧ p.1.Plain := by
  rw [processGiven]
  refine OSafe.out (built_safe hp.freed (buildCl_plain (B := 1) (by omega) (rebuilt_bok hs hc) (flat_clear hc) hf pc)) fun c1 s1 _ h1 => ?_
  obtain ⟨b1, _, e, hq⟩ := h1
  simp only at e hq
  subst e
  exact osafe_some ⟨⟨hp.freed, hp.passive, hp.active, hp.pos, hp.neg⟩, hq⟩

theorem addActive_safe {f : Nat} {s : Sys} {c : Clause} (hp : PlainSys s) (hs : SysOK cfg M cs s) (hc : s.b.st = St.clear)
    (hf : c.Fine s.b.mem) (pc : c.Plain) : OSafe (addActive cfg f s c) fun p => PlainSys p.2 := by
  rw [addActive]
  refine OSafe.out (built_safe hp.freed (buildCl_plain (B := 2) (by omega) (rebuilt_bok hs hc) (flat_clear hc) hf pc)) fun c1 s1 _ h1 => ?_
  obtain ⟨b1, _, e, hq⟩ := h1
  simp only at e hq
  subst e
  rw [pushActive]
  refine Safe.bind (storeTerms_safe hq _ _ ⟨hp.freed, hp.passive, fun d hd => ?_, hp.pos, hp.neg⟩ fun l => chosen_mem) fun s2 _ h2 => ?_
  · rcases List.mem_append.1 hd with hd | hd
    · exact hp.active d hd
    · rw [List.mem_singleton.1 hd]; exact hq
  · exact osafe_some h2

theorem givenSubsumed_safe {M : Mem} {c : Clause} (hc : c.Fine M) (pc : c.Plain) : ∀ (ds : List Clause),
    (∀ d : Clause, d ∈ ds → d.Fine M ∧ d.Plain) → ∃ b, givenSubsumed M c ds St.clear = .ok (b, St.clear)
  | [], _ => ⟨false, rfl⟩
  | d :: ds, h => by
    obtain ⟨h1, h2⟩ := h d (by simp)
    obtain ⟨b, s', hb⟩ := subsume_flat h1 hc h2.flat pc.flat h2.1
    have e := subsume_clear h1 hc hb
    subst e
    rw [givenSubsumed, hb, bind_ok]
    cases b with
    | true => exact ⟨true, rfl⟩
    | false => exact givenSubsumed_safe hc pc ds fun d hd => h d (by simp [hd])

theorem orStop_safe {α : Type} {s : Sys} {x : Out α} {k : α → Sys → Res (Verdict × Sys)} {Q : α × Sys → Prop} (hp : PlainSys s)
    (h : OSafe x Q) (hk : ∀ a s', x = .ok (some (a, s')) → Q (a, s') → Safe (k a s') fun p => PlainSys p.2) :
    Safe (orStop s x k) fun p => PlainSys p.2 := by
  rw [orStop]
  refine Safe.bind h fun o ho hq => ?_
  cases o with
  | none => exact safe_ok hp
  | some p => exact hk p.1 p.2 ho (hq p rfl)

theorem genloop_safe (hh : cfg.hyper = false) : ∀ (f : Nat) (s : Sys), PlainSys s → SysOK cfg M cs s → s.b.st = St.clear →
    Safe (genloop cfg f s) fun p => PlainSys p.2
  | 0, _, _, _, _ => safe_out
  | f + 1, s, hp, hs, hc => by
    rw [genloop.eq_def]
    dsimp only
    cases hq : s.passive with
    | nil => exact safe_ok hp
    | cons c rest =>
      simp only
      obtain ⟨cf, cw⟩ := hs.passive c (by rw [hq]; simp)
      have cp := hp.passive c (by rw [hq]; simp)
      obtain ⟨sub, hsub⟩ := givenSubsumed_safe cf cp s.active fun d hd => ⟨(hs.active d hd).fine, hp.active d hd⟩
      rw [hc, hsub, bind_ok]
      have hs1 : SysOK cfg M cs { s with passive := rest, b := { s.b with st := St.clear } } := by
        have := sys_ext (s' := { s with b := { s.b with st := St.clear } }) hs
          ⟨Cells.rfl _, Nat.le_refl _, fun _ _ => rfl, hs.blank⟩ rfl rfl rfl rfl
        exact ⟨this.cells, this.blank, fun d hd => hs.passive d (by rw [hq]; simp [hd]), this.active, this.pos, this.neg⟩
      have p1 : PlainSys { s with passive := rest, b := { s.b with st := St.clear } } :=
        ⟨hp.freed, fun d hd => hp.passive d (by rw [hq]; simp [hd]), hp.active, hp.pos, hp.neg⟩
      cases sub with
      | true =>
        simp only [if_true]
        exact genloop_safe hh f _ p1 hs1 rfl
      | false =>
        simp only [Bool.false_eq_true, if_false]
        refine orStop_safe p1 (processGiven_safe p1 hs1 rfl cf cp) fun given s2 e2 h2 => ?_
        obtain ⟨k1, k2, k3⟩ := processGiven_says hs1 rfl cf cw e2
        refine orStop_safe h2.1 (addActive_safe h2.1 k1 k2 k3.fine h2.2) fun u s3 e3 h3 => ?_
        obtain ⟨j1, j2, j3⟩ := addActive_says k1 k2 k3 e3
        refine orStop_safe h3 (resolveAll_safe hh f s3 given h3 j1 j2 (work_ext k1.blank j3 k3) h2.2) fun p s4 e4 h4 => ?_
        obtain ⟨S, S'⟩ := resolveAll_says f _ _ _ _ j1 j2 (work_ext k1.blank j3 k3) e4
        cases p with
        | true => rw [if_pos rfl]; exact safe_ok h4
        | false => rw [if_neg (by simp)]; exact genloop_safe hh f s4 h4 S.ok S'

end

end WG.Reason
