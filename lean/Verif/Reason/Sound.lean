import Verif.Reason.Resolvent
import Verif.Reason.Subsume

/-! # Everything that is derived follows -/
namespace WG.Reason

theorem subsume_clear {M : Mem} {c1 c2 : Clause} (h1 : c1.Fine M) (h2 : c2.Fine M) {b : Bool} {s' : St}
    (h : subsume M c1 c2 St.clear = .ok (b, s')) : s' = St.clear := by
  match c1, c2, h1, h2, h with
  | .fact a, .fact b', _, _, h =>
    rw [subsume] at h
    obtain ⟨r, _, h⟩ := bind_eq_ok h
    injection h with h; injection h with _ e; exact e.symm
  | .fact a, .rule ls, _, _, h =>
    rw [subsume] at h
    obtain ⟨r, _, h⟩ := bind_eq_ok h
    injection h with h; injection h with _ e; exact e.symm
  | .rule [], .fact b', _, _, h => cases h
  | .rule [], .rule ls, _, _, h =>
    rw [subsume] at h
    · by_cases hl : ([] : List Lit).length > ls.length
      · simp at hl
      · rw [if_neg hl] at h
        rw [subsAux, bind_ok] at h
        injection h with h; injection h with _ e
        rw [← e]; exact clearStack_eq (minv_clear M)
    · intro l hl; cases hl
  | .rule (k :: ks), c2, h1, h2, h => exact (subsume_says h1 h2 (by simp [Clause.FactGround]) (by simp [Clause.lits]) h).1

theorem givenSubsumed_clear {M : Mem} {c : Clause} (hc : c.Fine M) : ∀ (cs : List Clause) (b : Bool) (s' : St),
    (∀ d : Clause, d ∈ cs → d.Fine M) → givenSubsumed M c cs St.clear = .ok (b, s') → s' = St.clear
  | [], b, s', _, h => by injection h with h; injection h with _ e; exact e.symm
  | d :: cs, b, s', hcs, h => by
    rw [givenSubsumed] at h
    obtain ⟨⟨r, s1⟩, hr, h⟩ := bind_eq_ok h
    have e := subsume_clear (hcs d (by simp)) hc hr
    subst e
    cases r with
    | true =>
      rw [if_pos rfl] at h
      injection h with h; injection h with _ e; exact e.symm
    | false =>
      rw [if_neg (by simp)] at h
      exact givenSubsumed_clear hc cs b s' (fun d h => hcs d (by simp [h])) h

/-- Unification binds variables of the two terms only. -/
theorem unify_dom {M : Mem} {f : Nat} {x y : Term} {s : St} (hx : Fine M x) (hy : Fine M y) (h : unify M f St.clear x y = .ok (true, s))
    {n : Nat} (nx : n ∉ vars x) (ny : n ∉ vars y) : s.bank n = none := by
  have P := unify_post f _ _ _ _ _ (inv_clear M) hx hy h
  cases hb : s.bank n with
  | none => rfl
  | some t =>
    exfalso
    have hnt : n ∉ vars t := by
      intro hv
      have : ∀ m, Acc (Dep s) m → m ≠ n := by
        intro m hm
        induction hm with
        | intro m _ ih =>
          intro e
          subst e
          exact ih m ⟨t, hb, hv⟩ rfl
      exact this n (P.inv.wf.apply n) rfl
    obtain ⟨μ, hμ, _⟩ := exists_resp (M := M) P.inv.wf treeAlg Tree.var
    have he := P.sound rfl Tree treeAlg μ hμ
    let μ' : Nat → Tree := fun m => if m = n then .app [μ n] else μ m
    have same : ∀ t : Term, n ∉ vars t → ev M treeAlg μ' t = ev M treeAlg μ t := fun t ht =>
      ev_congr M treeAlg _ _ t fun v hv => if_neg fun e : v = n => ht (e ▸ hv)
    have hμ' := (P.complete Tree treeAlg μ' treeFree (fun n t h => by cases h) (by
      show ev M treeAlg μ' x = ev M treeAlg μ' y
      rw [same x nx, same y ny]; exact he)).2
    have h1 := hμ' n t hb
    rw [same t hnt, ← hμ n t hb] at h1
    have h2 : Tree.app [μ n] = μ n := by
      have : μ' n = Tree.app [μ n] := if_pos rfl
      rw [← this]; exact h1
    have := congrArg Tree.size h2
    simp [Tree.size, Tree.sizeL] at this

/-- Everything that has a value is on the stack. -/
def Covers (s : St) : Prop := ∀ n, s.bank n ≠ none → n ∈ s.stack

theorem Covers.clear {s : St} (h : Covers s) : s.clearStack = St.clear := by
  have : (fun m => if m ∈ s.stack then none else s.bank m) = fun _ => (none : Option Term) := by
    funext m
    by_cases hm : m ∈ s.stack
    · rw [if_pos hm]
    · rw [if_neg hm]
      exact Classical.byContradiction fun hn => hm (h m hn)
  simp only [St.clearStack, St.clear, this]

theorem Inv.covers {M : Mem} {s : St} (I : Inv M s) : Covers s := fun n h => (I.mem n).2 h

/-! ## The state -/

structure Work (cfg : Cfg) (M : Mem) (cs : List Clause) (M' : Mem) (c : Clause) : Prop where
  fine : c.Fine M'
  follows : Follows cfg M cs M' c
  low : Low c.lits
  clean : Clean c.lits

/-- An entry in the table of literals. -/
structure Entry (cfg : Cfg) (M : Mem) (cs : List Clause) (M' : Mem) (neg : Bool) (e : Nat × Term × Clause) : Prop where
  work : Work cfg M cs M' e.2.2
  mem : ⟨neg, e.2.1⟩ ∈ e.2.2.lits
  app : ∃ a us, e.2.1 = .app a us

structure SysOK (cfg : Cfg) (M : Mem) (cs : List Clause) (s : Sys) : Prop where
  cells : Cells M s.b.mem
  blank : Blank s.b.mem s.b.next
  passive : ∀ c : Clause, c ∈ s.passive → c.Fine s.b.mem ∧ Follows cfg M cs s.b.mem c
  active : ∀ c : Clause, c ∈ s.active → Work cfg M cs s.b.mem c
  pos : ∀ e, e ∈ s.pos → Entry cfg M cs s.b.mem false e
  neg : ∀ e, e ∈ s.neg → Entry cfg M cs s.b.mem true e

section
variable {cfg : Cfg} {M : Mem} {cs : List Clause}

theorem follows_ext {b b' : Bld} (h : Ext b b') {c : Clause} (hc : Follows cfg M cs b.mem c) : Follows cfg M cs b'.mem c :=
  fun D I hI hd => (true_cells h.cells).2 (hc D I hI hd)

theorem work_ext {b b' : Bld} (hb : Blank b.mem b.next) (h : Ext b b') {c : Clause} (hc : Work cfg M cs b.mem c) :
    Work cfg M cs b'.mem c :=
  ⟨fun l hl => fine_ext hb h (hc.fine l hl), follows_ext h hc.follows, hc.low, hc.clean⟩

theorem sys_ext {s s' : Sys} (h : SysOK cfg M cs s) (he : Ext s.b s'.b) (h1 : s'.passive = s.passive) (h2 : s'.active = s.active)
    (h3 : s'.pos = s.pos) (h4 : s'.neg = s.neg) : SysOK cfg M cs s' := by
  refine ⟨h.cells.trans he.cells, he.blank, ?_, ?_, ?_, ?_⟩
  · intro c hc
    rw [h1] at hc
    exact ⟨fun l hl => fine_ext h.blank he ((h.passive c hc).1 l hl), follows_ext he (h.passive c hc).2⟩
  · intro c hc
    rw [h2] at hc
    exact work_ext h.blank he (h.active c hc)
  · intro e hm
    rw [h3] at hm
    have := h.pos e hm
    exact ⟨work_ext h.blank he this.work, this.mem, this.app⟩
  · intro e hm
    rw [h4] at hm
    have := h.neg e hm
    exact ⟨work_ext h.blank he this.work, this.mem, this.app⟩

theorem sys_bok {s : Sys} (h : SysOK cfg M cs s) (hs : s.b.st = St.clear) (hv : s.b.vc ≤ 1000) : BOK s.b :=
  ⟨by rw [hs]; exact inv_clear _, h.blank, fun n _ => by rw [hs]; rfl, hv⟩

/-- What each of the stages keeps. -/
structure Step (cfg : Cfg) (M : Mem) (cs : List Clause) (s : Sys) (p : Bool) (s' : Sys) : Prop where
  ok : SysOK cfg M cs s'
  ext : Ext s.b s'.b
  covers : Covers s'.b.st
  proof : p = true → Unsat cfg M cs

theorem built_ok {α : Type} {s : Sys} {r : Res (Option (α × Bld))} {a : α} {s' : Sys} (h : s.built r = .ok (some (a, s'))) :
    ∃ b', r = .ok (some (a, b')) ∧ s' = { s with b := b' } := by
  rw [Sys.built] at h
  by_cases hf : s.buf ∈ s.freed
  · rw [if_pos hf] at h; cases h
  · rw [if_neg hf] at h
    obtain ⟨p, hp, h⟩ := bind_eq_ok h
    cases p with
    | none => cases h
    | some p =>
      obtain ⟨a', b'⟩ := p
      injection h with h; injection h with h; injection h with e1 e2
      subst e1
      exact ⟨b', hp, e2.symm⟩

theorem out_bind_ok {α β : Type} {x : Out α} {k : α → Sys → Out β} {r : β × Sys} (h : Out.bind x k = .ok (some r)) :
    ∃ a s, x = .ok (some (a, s)) ∧ k a s = .ok (some r) := by
  obtain ⟨p, hp, h⟩ := bind_eq_ok h
  cases p with
  | none => cases h
  | some p => exact ⟨p.1, p.2, hp, h⟩

/-- What the stages may assume about `wr_resolve_binary_all_active`. -/
def Again (cfg : Cfg) (M : Mem) (cs : List Clause) (again : Sys → Clause → Out Bool) : Prop :=
  ∀ s c p s', SysOK cfg M cs s → s.b.st = St.clear → Work cfg M cs s.b.mem c → again s c = .ok (some (p, s')) → Step cfg M cs s p s' ∧ s'.b.st = St.clear

theorem freeBuf_same {stored : Buf} {s s' : Sys} (h : freeBuf stored s = .ok s') : s' = { s with freed := s'.freed, buf := s'.buf } := by
  rw [freeBuf] at h
  by_cases hf : s.buf = .wild ∨ s.buf ∈ s.freed
  · rw [if_pos hf] at h; cases h
  · rw [if_neg hf] at h
    injection h with h; subst h; rfl

theorem deliver_says {again : Sys → Clause → Out Bool} (ha : Again cfg M cs again) {stored : Buf} {s s' : Sys} {c : Clause} {p : Bool}
    (hs : SysOK cfg M cs s) (hv : Covers s.b.st) (hc : Work cfg M cs s.b.mem c) (h : deliver cfg again stored s c = .ok (some (p, s'))) :
    Step cfg M cs s p s' := by
  rw [deliver] at h
  by_cases hh : (cfg.hyper && !satCl cfg c) = true
  · rw [if_pos hh] at h
    obtain ⟨q, s1, h1, h⟩ := out_bind_ok h
    have hs0 : SysOK cfg M cs s.clearVars := sys_ext hs ⟨Cells.rfl _, Nat.le_refl _, fun _ _ => rfl, hs.blank⟩ rfl rfl rfl rfl
    have A := (ha _ _ _ _ hs0 hv.clear hc h1).1
    obtain ⟨s2, h2, h⟩ := bind_eq_ok h
    injection h with h; injection h with h; injection h with e1 e2; subst e1; subst e2
    have hq := freeBuf_same h2
    rw [hq]
    exact ⟨sys_ext A.ok (.refl A.ok.blank) rfl rfl rfl rfl, ⟨A.ext.cells, A.ext.next, A.ext.parts, A.ext.blank⟩, A.covers, A.proof⟩
  · rw [if_neg hh] at h
    injection h with h; injection h with h; injection h with e1 e2; subst e1; subst e2
    refine ⟨⟨hs.cells, hs.blank, fun d hd => ?_, hs.active, hs.pos, hs.neg⟩, .refl hs.blank, hv, fun hp => by cases hp⟩
    rcases List.mem_append.1 hd with hd | hd
    · exact hs.passive d hd
    · rw [List.mem_singleton.1 hd]; exact ⟨hc.fine, hc.follows⟩

theorem finish_says {again : Sys → Clause → Out Bool} (ha : Again cfg M cs again) {f : Nat} {s s' : Sys} {r : List Lit} {p : Bool}
    (hs : SysOK cfg M cs s) (hv : Covers s.b.st) (hr : ∀ l : Lit, l ∈ r → Fine s.b.mem l.atom) (hlow : Low r)
    (hf : Follows cfg M cs s.b.mem (.rule r)) (h : finish cfg f again r s = .ok (some (p, s'))) : Step cfg M cs s p s' := by
  rw [finish] at h
  by_cases he : r = []
  · rw [if_pos he] at h
    injection h with h; injection h with h; injection h with e1 e2; subst e1; subst e2
    refine ⟨hs, .refl hs.blank, hv, fun _ D I hI hd => ?_⟩
    obtain ⟨l, hl, _⟩ := hf D I hI hd fun _ => I.alg.con .null
    rw [he] at hl
    cases hl
  · rw [if_neg he] at h
    obtain ⟨c, s1, h1, h⟩ := out_bind_ok h
    obtain ⟨b1, hb1, e⟩ := built_ok h1
    have C := copyRes_says hs.blank hr hb1
    subst e
    generalize (if cfg.hyper && !satTmp cfg r then Buf.part s.nparts else Buf.queue) = buf at h
    have hs1 : SysOK cfg M cs { s with comp := false, buf := buf, nparts := s.nparts + 1, b := b1 } := sys_ext hs C.ext rfl rfl rfl rfl
    have W : Work cfg M cs b1.mem c := by
      refine ⟨C.fine, fun D I hI hd ρ => ?_, C.low hlow, C.clean⟩
      have := true_iff.1 (hf D I hI hd ρ)
      rw [show meaning s.b.mem I.alg ρ (Clause.rule r).lits = meaning b1.mem I.alg ρ c.lits from (C.eval D I.alg ρ).symm] at this
      exact true_iff.2 this
    have S := deliver_says ha hs1 (by show Covers b1.st; rw [C.st]; exact hv) W h
    exact ⟨S.ok, C.ext.trans S.ext, S.covers, S.proof⟩

theorem covers_cleanup {b : Bld} (h : Covers b.st) : Covers b.cleanup.st := by
  intro n hn
  apply h n
  intro e
  apply hn
  show (if 3000 ≤ n ∧ n < 3000 + b.vc then none else b.st.bank n) = none
  rw [e]; simp

theorem auxLoop_grow {B : Nat} {bd : Bld → Term → Res (Option (Term × Bld))}
    (hbd : ∀ b x t b', BOK b → Fine b.mem x → bd b x = .ok (some (t, b')) → Says cfg B b x t b') (cut : Term) :
    ∀ (ls : List Lit) (b : Bld) (r : List Lit) (o : Option (List Lit)) (b' : Bld), BOK b → (∀ l : Lit, l ∈ ls → Fine b.mem l.atom) →
    auxLoop bd cut ls b r = .ok (some (o, b')) → Grow b b'
  | [], b, r, o, b', hb, _, h => by
    injection h with h; injection h with h; injection h with e1 e2; subst e2; exact hb.refl
  | l :: ls, b, r, o, b', hb, hls, h => by
    rw [auxLoop] at h
    by_cases hc : l.atom.same cut = true
    · rw [if_pos hc] at h
      exact auxLoop_grow hbd cut ls b r o b' hb (fun l h => hls l (by simp [h])) h
    · rw [if_neg hc] at h
      obtain ⟨p, hp, h⟩ := bind_eq_ok h
      cases p with
      | none => cases h
      | some p =>
        obtain ⟨u, b1⟩ := p
        obtain ⟨q, hq, h⟩ := bind_eq_ok h
        have S := hbd b l.atom u b1 hb (hls l (by simp)) hp
        cases q with
        | none => injection h with h; injection h with h; injection h with e1 e2; subst e2; exact S.grow
        | some r1 =>
          exact S.grow.trans (auxLoop_grow hbd cut ls b1 r1 o b' S.grow.ok
            (fun l h => fine_ext hb.blank S.grow.ext (hls l (by simp [h]))) h)

theorem auxCl_grow {B : Nat} {bd : Bld → Term → Res (Option (Term × Bld))}
    (hbd : ∀ b x t b', BOK b → Fine b.mem x → bd b x = .ok (some (t, b')) → Says cfg B b x t b') {cut : Term} {c : Clause} {b : Bld}
    {r : List Lit} {o : Option (List Lit)} {b' : Bld} (hb : BOK b) (hc : c.Fine b.mem)
    (h : auxCl bd c cut b r = .ok (some (o, b'))) : Grow b b' := by
  rw [auxCl] at h
  by_cases hl : 1 < c.lits.length
  · rw [if_pos hl] at h
    exact auxLoop_grow hbd cut _ _ _ _ _ hb hc h
  · rw [if_neg hl] at h
    injection h with h; injection h with h; injection h with e1 e2; subst e2; exact hb.refl

theorem auxBoth_grow {B : Nat} {bd : Bld → Term → Res (Option (Term × Bld))}
    (hbd : ∀ b x t b', BOK b → Fine b.mem x → bd b x = .ok (some (t, b')) → Says cfg B b x t b') {x y : Term} {xcl ycl : Clause} {b : Bld}
    {o : Option (List Lit)} {b' : Bld} (hb : BOK b) (hx : xcl.Fine b.mem) (hy : ycl.Fine b.mem)
    (h : auxBoth bd x xcl y ycl b = .ok (some (o, b'))) : Grow b b' := by
  rw [auxBoth] at h
  obtain ⟨p, hp, h⟩ := bind_eq_ok h
  match p, hp, h with
  | none, _, h => cases h
  | some (none, b1), hp, h =>
    injection h with h; injection h with h; injection h with e1 e2; subst e2
    exact auxCl_grow hbd hb hx hp
  | some (some r1, b1), hp, h =>
    have P := auxCl_grow hbd hb hx hp
    exact P.trans (auxCl_grow hbd P.ok (fun l hl => fine_ext hb.blank P.ext (hy l hl)) h)

theorem processResult_says {again : Sys → Clause → Out Bool} (ha : Again cfg M cs again) {f : Nat} {s s' : Sys} {x y : Term}
    {xcl ycl : Clause} {n : Bool} {p : Bool} (hs : SysOK cfg M cs s) (I : Inv s.b.mem s.b.st) (hd : ∀ n, 4000 ≤ n → s.b.st.bank n = none)
    (hx : Work cfg M cs s.b.mem xcl) (hy : Work cfg M cs s.b.mem ycl) (mx : ⟨n, x⟩ ∈ xcl.lits) (my : ⟨!n, y⟩ ∈ ycl.lits)
    (ax : ∃ a us, x = .app a us) (ay : ∃ a us, y = .app a us)
    (he : ∀ (D : Type) (A : Alg D) (ρ : Nat → D), Resp s.b.mem A ρ s.b.st → ev s.b.mem A ρ x = ev s.b.mem A ρ y)
    (h : processResult cfg f again x xcl y ycl s = .ok (some (p, s'))) : Step cfg M cs s p s' := by
  rw [processResult] at h
  by_cases hl : xcl.lits.length + ycl.lits.length = 2
  · rw [if_pos hl] at h
    injection h with h; injection h with h; injection h with e1 e2; subst e1; subst e2
    refine ⟨hs, .refl hs.blank, I.covers, fun _ D J hJ hcs => ?_⟩
    obtain ⟨ρ, hR, _⟩ := exists_resp (M := s.b.mem) I.wf J.alg fun _ => J.alg.con .null
    have one : ∀ (ls : List Lit) (l k : Lit), ls.length ≤ 1 → l ∈ ls → k ∈ ls → l = k := by
      intro ls l k hlen hl hk
      match ls, hlen, hl, hk with
      | [a], _, hl, hk => simp_all
      | _ :: _ :: _, hlen, _, _ => simp at hlen
    have lx := List.length_pos_of_mem mx
    have ly := List.length_pos_of_mem my
    obtain ⟨l, hl1, ht⟩ := hx.follows D J hJ hcs ρ
    obtain ⟨k, hk1, ht'⟩ := hy.follows D J hJ hcs ρ
    have e1 := one _ _ _ (by omega) hl1 mx
    have e2 := one _ _ _ (by omega) hk1 my
    subst e1; subst e2
    unfold Lit.True at ht ht'
    simp only at ht ht'
    rw [he D J.alg ρ hR] at ht
    cases n with
    | true => exact ht ht'
    | false => exact ht' ht
  · rw [if_neg hl] at h
    by_cases hq : Buf.derived ∈ s.freed
    · rw [if_pos hq] at h; cases h
    · rw [if_neg hq] at h
      by_cases hr : cfg.room s.b.next = true
      · rw [if_pos hr] at h
        obtain ⟨o, s1, h1, h⟩ := out_bind_ok h
        obtain ⟨b1, hb1, e⟩ := built_ok h1
        have hblank : Blank s.b.mem (s.b.next + 1) := fun a ha => hs.blank a (Nat.le_trans (Nat.le_succ _) ha)
        have hb0 : BOK { s.b with next := s.b.next + 1, vc := 0 } := ⟨I, hblank, hd, Nat.zero_le _⟩
        have e0 : Ext s.b { s.b with next := s.b.next + 1, vc := 0 } := ⟨Cells.rfl _, Nat.le_succ _, fun _ _ => rfl, hblank⟩
        cases o with
        | none =>
          subst e
          injection h with h; injection h with h; injection h with e1 e2; subst e1; subst e2
          obtain ⟨g1, g2⟩ : Grow { s.b with next := s.b.next + 1, vc := 0 } b1 ∧ Covers b1.st := by
            have := auxBoth_grow (build_says (Nat.le_refl 3) f) hb0 hx.fine hy.fine hb1
            exact ⟨this, this.ok.inv.covers⟩
          have g3 := e0.trans g1.ext
          exact ⟨sys_ext hs ⟨g3.cells, g3.next, g3.parts, g3.blank⟩ rfl rfl rfl rfl, ⟨g3.cells, g3.next, g3.parts, g3.blank⟩,
            covers_cleanup g2, fun hp => by cases hp⟩
        | some r =>
          subst e
          obtain ⟨g1, g2, g3, g4⟩ := auxBoth_says (build_says (Nat.le_refl 3) f) hb0 hx.fine hy.fine hx.clean hy.clean mx my ax ay he hb1
          have g5 := e0.trans g1.ext
          have g6 : Ext s.b b1.cleanup := ⟨g5.cells, g5.next, g5.parts, g5.blank⟩
          have S := finish_says ha (s := { s with comp := cfg.comp, buf := .derived, b := b1.cleanup })
            (sys_ext hs g6 rfl rfl rfl rfl) (covers_cleanup g1.ok.inv.covers) g2 g3
            (fun D J hJ hcs => g4 D J (std_cells hs.cells hJ) (hx.follows D J hJ hcs) (hy.follows D J hJ hcs)) h
          exact ⟨S.ok, g6.trans S.ext, S.covers, S.proof⟩
      · rw [if_neg hr] at h; cases h

/-! ## The loops -/

theorem nodeLoop_says {f : Nat} {pr : Term → Clause → Sys → Out Bool} {x : Term} {xcl : Clause} {n : Bool} (mx : ⟨n, x⟩ ∈ xcl.lits)
    (ax : ∃ a us, x = .app a us)
    (hpr : ∀ y ycl s p s', SysOK cfg M cs s → Inv s.b.mem s.b.st → (∀ n, 4000 ≤ n → s.b.st.bank n = none) →
      Work cfg M cs s.b.mem xcl → Work cfg M cs s.b.mem ycl → ⟨!n, y⟩ ∈ ycl.lits → (∃ a us, y = .app a us) →
      (∀ (D : Type) (A : Alg D) (ρ : Nat → D), Resp s.b.mem A ρ s.b.st → ev s.b.mem A ρ x = ev s.b.mem A ρ y) →
      pr y ycl s = .ok (some (p, s')) → Step cfg M cs s p s') :
    ∀ (ns : List (Nat × Term × Clause)) (s : Sys) (p : Bool) (s' : Sys), SysOK cfg M cs s → s.b.st = St.clear →
    Work cfg M cs s.b.mem xcl → (∀ e, e ∈ ns → Entry cfg M cs s.b.mem (!n) e) → nodeLoop f pr x ns s = .ok (some (p, s')) →
    Step cfg M cs s p s' ∧ s'.b.st = St.clear
  | [], s, p, s', hs, hc, _, _, h => by
    injection h with h; injection h with h; injection h with e1 e2; subst e1; subst e2
    exact ⟨⟨hs, .refl hs.blank, by rw [hc]; exact (inv_clear s.b.mem).covers, fun hp => by cases hp⟩, hc⟩
  | (h0, y, ycl) :: ns, s, p, s', hs, hc, hx, hns, h => by
    rw [nodeLoop] at h
    obtain ⟨⟨u, st⟩, hu, h⟩ := bind_eq_ok h
    rw [hc] at hu
    have E := hns (h0, y, ycl) (by simp)
    have fx := hx.fine _ mx
    have fy := E.work.fine _ E.mem
    have P := unify_post f _ _ _ _ _ (inv_clear s.b.mem) fx fy hu
    have next : ∀ s1 : Sys, Ext s.b s1.b → SysOK cfg M cs s1 → Covers s1.b.st → nodeLoop f pr x ns s1.clearVars = .ok (some (p, s')) →
        Step cfg M cs s p s' ∧ s'.b.st = St.clear := by
      intro s1 e1 hs1 hv1 h1
      have hs2 : SysOK cfg M cs s1.clearVars := sys_ext hs1 ⟨Cells.rfl _, Nat.le_refl _, fun _ _ => rfl, hs1.blank⟩ rfl rfl rfl rfl
      have := nodeLoop_says mx ax hpr ns s1.clearVars p s' hs2 hv1.clear (work_ext hs.blank e1 hx) (fun e he => by
        have E := hns e (by simp [he])
        exact ⟨work_ext hs.blank e1 E.work, E.mem, E.app⟩) h1
      have ee := e1.trans (b'' := s'.b) ⟨this.1.ext.cells, this.1.ext.next, this.1.ext.parts, this.1.ext.blank⟩
      exact ⟨⟨this.1.ok, ee, this.1.covers, this.1.proof⟩, this.2⟩
    have hs1 : SysOK cfg M cs { s with b := { s.b with st := st } } :=
      sys_ext hs ⟨Cells.rfl _, Nat.le_refl _, fun _ _ => rfl, hs.blank⟩ rfl rfl rfl rfl
    have e1 : Ext s.b { s.b with st := st } := ⟨Cells.rfl _, Nat.le_refl _, fun _ _ => rfl, hs.blank⟩
    cases u with
    | false =>
      simp only [Bool.false_eq_true, if_false] at h
      exact next _ e1 hs1 P.inv.covers h
    | true =>
      simp only [if_true] at h
      obtain ⟨q, s2, h2, h⟩ := out_bind_ok h
      have S := hpr y ycl _ q s2 hs1 P.inv (fun m hm => unify_dom fx fy hu (fun hv => by have := hx.low _ mx m hv; omega)
        (fun hv => by have := E.work.low _ E.mem m hv; omega)) hx E.work E.mem E.app (fun D A ρ hR => P.sound rfl D A ρ hR) h2
      have e2 := e1.trans S.ext
      cases q with
      | false =>
        simp only [Bool.false_eq_true, if_false] at h
        exact next _ e2 S.ok S.covers h
      | true =>
        rw [if_pos rfl] at h
        injection h with h; injection h with h; injection h with e3 e4; subst e3; subst e4
        refine ⟨⟨sys_ext S.ok ⟨Cells.rfl _, Nat.le_refl _, fun _ _ => rfl, S.ok.blank⟩ rfl rfl rfl rfl,
          ⟨e2.cells, e2.next, e2.parts, e2.blank⟩, ?_, S.proof⟩, S.covers.clear⟩
        show Covers s2.b.st.clearStack
        rw [S.covers.clear]; exact (inv_clear s.b.mem).covers

theorem funHash_app {t : Term} {k : Nat} (h : funHash cfg t = .ok k) : ∃ a us, t = .app a us := by
  unfold funHash at h
  split at h
  · exact ⟨_, _, rfl⟩
  · cases h

theorem litLoop_says {f : Nat} {pr : Term → Term → Clause → Sys → Out Bool} {xcl : Clause}
    (hpr : ∀ n x y ycl s p s', SysOK cfg M cs s → Inv s.b.mem s.b.st → (∀ n, 4000 ≤ n → s.b.st.bank n = none) →
      Work cfg M cs s.b.mem xcl → Work cfg M cs s.b.mem ycl → ⟨n, x⟩ ∈ xcl.lits → ⟨!n, y⟩ ∈ ycl.lits → (∃ a us, x = .app a us) →
      (∃ a us, y = .app a us) →
      (∀ (D : Type) (A : Alg D) (ρ : Nat → D), Resp s.b.mem A ρ s.b.st → ev s.b.mem A ρ x = ev s.b.mem A ρ y) →
      pr x y ycl s = .ok (some (p, s')) → Step cfg M cs s p s') :
    ∀ (ls : List Lit) (s : Sys) (p : Bool) (s' : Sys), SysOK cfg M cs s → s.b.st = St.clear →
    Work cfg M cs s.b.mem xcl → (∀ l : Lit, l ∈ ls → l ∈ xcl.lits) → litLoop cfg f pr ls s = .ok (some (p, s')) →
    Step cfg M cs s p s' ∧ s'.b.st = St.clear
  | [], s, p, s', hs, hc, _, _, h => by
    injection h with h; injection h with h; injection h with e1 e2; subst e1; subst e2
    exact ⟨⟨hs, .refl hs.blank, by rw [hc]; exact (inv_clear s.b.mem).covers, fun hp => by cases hp⟩, hc⟩
  | l :: ls, s, p, s', hs, hc, hx, hls, h => by
    rw [litLoop] at h
    obtain ⟨k, hk, h⟩ := bind_eq_ok h
    obtain ⟨q, s1, h1, h⟩ := out_bind_ok h
    have hl := hls l (by simp)
    have N := nodeLoop_says (n := l.neg) hl (funHash_app hk)
      (fun y ycl s p s' a1 a2 a3 a4 a5 a6 a7 a8 a9 => hpr l.neg l.atom y ycl s p s' a1 a2 a3 a4 a5 hl a6 (funHash_app hk) a7 a8 a9)
      _ s q s1 hs hc hx (fun e he => by
        have he := (List.mem_filter.1 he).1
        cases hn : l.neg with
        | true => rw [hn, if_pos rfl] at he; exact hs.pos e he
        | false => rw [hn, if_neg (by simp)] at he; exact hs.neg e he) h1
    cases q with
    | true =>
      rw [if_pos rfl] at h
      injection h with h; injection h with h; injection h with e1 e2; subst e1; subst e2
      exact N
    | false =>
      rw [if_neg (by simp)] at h
      have := litLoop_says hpr ls s1 p s' N.1.ok N.2 (work_ext hs.blank N.1.ext hx) (fun l h => hls l (by simp [h])) h
      exact ⟨⟨this.1.ok, N.1.ext.trans this.1.ext, this.1.covers, this.1.proof⟩, this.2⟩

theorem choose_mem {all posok negok : Bool} : ∀ (ls : List Lit) (added : Bool) (l : Lit), l ∈ choose cfg all posok negok added ls → l ∈ ls
  | [], _, _, h => by cases h
  | k :: ls, added, l, h => by
    rw [choose] at h
    split at h
    · rcases List.mem_cons.1 h with h | h
      · subst h; simp
      · exact List.mem_cons_of_mem _ (choose_mem ls _ l h)
    · exact List.mem_cons_of_mem _ (choose_mem ls _ l h)

theorem chosen_mem {all : Bool} {c : Clause} {l : Lit} (h : l ∈ chosen cfg all c) : l ∈ c.lits := by
  cases c with
  | fact a => exact h
  | rule ls => exact choose_mem ls _ l h

theorem resolveAll_says : ∀ f, Again cfg M cs (resolveAll cfg f)
  | 0 => fun _ _ _ _ _ _ _ h => by cases h
  | f + 1 => fun s c p s' hs hc hw h => by
    rw [resolveAll] at h
    exact litLoop_says (xcl := c) (fun n x y ycl s p s' a1 a2 a3 a4 a5 a6 a7 a8 a9 a10 a11 =>
      processResult_says (resolveAll_says f) a1 a2 a3 a4 a5 a6 a7 a8 a9 a10 a11) _ s p s' hs hc hw (fun l => chosen_mem) h

/-! ## Given and active clauses -/

theorem storeTerms_says {c : Clause} : ∀ (ls : List Lit) (s s' : Sys), SysOK cfg M cs s → Work cfg M cs s.b.mem c →
    (∀ l : Lit, l ∈ ls → l ∈ c.lits) → storeTerms cfg c ls s = .ok s' → SysOK cfg M cs s' ∧ s'.b = s.b
  | [], s, s', hs, _, _, h => by injection h with h; subst h; exact ⟨hs, rfl⟩
  | l :: ls, s, s', hs, hw, hls, h => by
    rw [storeTerms] at h
    obtain ⟨k, hk, h⟩ := bind_eq_ok h
    have hl := hls l (by simp)
    by_cases hn : l.neg = true
    · rw [if_pos hn] at h
      refine storeTerms_says ls { s with neg := (k, l.atom, c) :: s.neg } s' ⟨hs.cells, hs.blank, hs.passive, hs.active, hs.pos, fun e he => ?_⟩ hw
        (fun l h => hls l (by simp [h])) h
      rcases List.mem_cons.1 he with he | he
      · subst he; exact ⟨hw, by rw [← hn]; exact hl, funHash_app hk⟩
      · exact hs.neg e he
    · rw [if_neg hn] at h
      have hn : l.neg = false := by simpa using hn
      refine storeTerms_says ls { s with pos := (k, l.atom, c) :: s.pos } s' ⟨hs.cells, hs.blank, hs.passive, hs.active, fun e he => ?_, hs.neg⟩ hw
        (fun l h => hls l (by simp [h])) h
      rcases List.mem_cons.1 he with he | he
      · subst he; exact ⟨hw, by rw [← hn]; exact hl, funHash_app hk⟩
      · exact hs.pos e he

theorem rebuilt_says {comp : Bool} {B : Nat} (hB : B ≤ 3) {f : Nat} {s : Sys} {c c' : Clause} {b' : Bld} (hs : SysOK cfg M cs s)
    (hc : s.b.st = St.clear) (hf : c.Fine s.b.mem) (hw : Follows cfg M cs s.b.mem c)
    (h : buildCl cfg comp (some B) f { s.b with vc := 0 } c = .ok (some (c', b'))) :
    Ext s.b b' ∧ Covers b'.st ∧ Work cfg M cs b'.mem c' := by
  have hb0 : BOK { s.b with vc := 0 } := sys_bok (s := { s with b := { s.b with vc := 0 } })
    (sys_ext hs ⟨Cells.rfl _, Nat.le_refl _, fun _ _ => rfl, hs.blank⟩ rfl rfl rfl rfl) hc (Nat.zero_le _)
  have C := buildCl_says hB hb0 hf h
  exact ⟨⟨C.grow.ext.cells, C.grow.ext.next, C.grow.ext.parts, C.grow.ext.blank⟩, C.grow.ok.inv.covers,
    C.fine, fun D I hI hd => C.cons D I (std_cells hs.cells hI) (hw D I hI hd), C.low, C.clean⟩

theorem processGiven_says {f : Nat} {s s' : Sys} {c c' : Clause} (hs : SysOK cfg M cs s) (hc : s.b.st = St.clear)
    (hf : c.Fine s.b.mem) (hw : Follows cfg M cs s.b.mem c) (h : processGiven cfg f s c = .ok (some (c', s'))) :
    SysOK cfg M cs s' ∧ s'.b.st = St.clear ∧ Work cfg M cs s'.b.mem c' := by
  rw [processGiven] at h
  obtain ⟨c1, s1, h1, h⟩ := out_bind_ok h
  obtain ⟨b1, hb1, e⟩ := built_ok h1
  subst e
  injection h with h; injection h with h; injection h with e1 e2; subst e1; subst e2
  obtain ⟨g1, g2, g3⟩ := rebuilt_says (by omega) hs hc hf hw hb1
  exact ⟨sys_ext hs ⟨g1.cells, g1.next, g1.parts, g1.blank⟩ rfl rfl rfl rfl, g2.clear, g3⟩

theorem addActive_says {f : Nat} {s s' : Sys} {c : Clause} {u : Unit} (hs : SysOK cfg M cs s) (hc : s.b.st = St.clear)
    (hw : Work cfg M cs s.b.mem c) (h : addActive cfg f s c = .ok (some (u, s'))) :
    SysOK cfg M cs s' ∧ s'.b.st = St.clear ∧ Ext s.b s'.b := by
  rw [addActive] at h
  obtain ⟨c1, s1, h1, h⟩ := out_bind_ok h
  obtain ⟨b1, hb1, e⟩ := built_ok h1
  subst e
  obtain ⟨s2, h2, h⟩ := bind_eq_ok h
  injection h with h; injection h with h; injection h with e1 e2; subst e1; subst e2
  obtain ⟨g1, g2, g3⟩ := rebuilt_says (by omega) hs hc hw.fine hw.follows hb1
  rw [pushActive] at h2
  have hs1 := sys_ext (s' := Sys.clearVars { s with buf := .active, b := b1 }) hs ⟨g1.cells, g1.next, g1.parts, g1.blank⟩ rfl rfl rfl rfl
  obtain ⟨k1, k2⟩ := storeTerms_says _ { Sys.clearVars { s with buf := .active, b := b1 } with active := s.active ++ [c1] } _ ⟨hs1.cells, hs1.blank, hs1.passive, fun d hd => by
    rcases List.mem_append.1 hd with hd | hd
    · exact hs1.active d hd
    · rw [List.mem_singleton.1 hd]; exact g3, hs1.pos, hs1.neg⟩ g3 (fun l => chosen_mem) h2
  refine ⟨k1, ?_, ?_⟩
  · rw [k2]; exact g2.clear
  · rw [k2]; exact ⟨g1.cells, g1.next, g1.parts, g1.blank⟩

theorem genloop_says : ∀ (f : Nat) (s : Sys) (v : Verdict) (s' : Sys), SysOK cfg M cs s → s.b.st = St.clear →
    genloop cfg f s = .ok (v, s') → SysOK cfg M cs s' ∧ (v = .proof → Unsat cfg M cs)
  | 0, _, _, _, _, _, h => by cases h
  | f + 1, s, v, s', hs, hc, h => by
    rw [genloop.eq_def] at h
    dsimp only at h
    cases hp : s.passive with
    | nil =>
      rw [hp] at h
      injection h with h; injection h with e1 e2; subst e1; subst e2
      exact ⟨hs, fun hv => by cases hv⟩
    | cons c rest =>
      rw [hp] at h
      simp only at h
      obtain ⟨⟨sub, st⟩, hsub, h⟩ := bind_eq_ok h
      obtain ⟨cf, cw⟩ := hs.passive c (by rw [hp]; simp)
      rw [hc] at hsub
      have e := givenSubsumed_clear cf s.active sub st (fun d hd => (hs.active d hd).fine) hsub
      subst e
      have hs1 : SysOK cfg M cs { s with passive := rest, b := { s.b with st := St.clear } } := by
        have := sys_ext (s' := { s with b := { s.b with st := St.clear } }) hs
          ⟨Cells.rfl _, Nat.le_refl _, fun _ _ => rfl, hs.blank⟩ rfl rfl rfl rfl
        exact ⟨this.cells, this.blank, fun d hd => hs.passive d (by rw [hp]; simp [hd]), this.active, this.pos, this.neg⟩
      cases sub with
      | true =>
        simp only [if_true] at h
        exact genloop_says f _ v s' hs1 rfl h
      | false =>
        simp only [Bool.false_eq_true, if_false] at h
        unfold orStop at h
        obtain ⟨o, ho, h⟩ := bind_eq_ok h
        cases o with
        | none => injection h with h; injection h with e1 e2; subst e1; subst e2; exact ⟨hs1, fun hv => by cases hv⟩
        | some o =>
          obtain ⟨given, s2⟩ := o
          obtain ⟨k1, k2, k3⟩ := processGiven_says hs1 rfl cf cw ho
          obtain ⟨o, ho, h⟩ := bind_eq_ok h
          cases o with
          | none => injection h with h; injection h with e1 e2; subst e1; subst e2; exact ⟨k1, fun hv => by cases hv⟩
          | some o =>
            obtain ⟨u, s3⟩ := o
            obtain ⟨j1, j2, j3⟩ := addActive_says k1 k2 k3 ho
            obtain ⟨o, ho, h⟩ := bind_eq_ok h
            cases o with
            | none => injection h with h; injection h with e1 e2; subst e1; subst e2; exact ⟨j1, fun hv => by cases hv⟩
            | some o =>
              obtain ⟨p, s4⟩ := o
              obtain ⟨S, S'⟩ := resolveAll_says f _ _ _ _ j1 j2 (work_ext k1.blank j3 k3) ho
              cases p with
              | true =>
                simp only [if_true] at h
                injection h with h; injection h with e1 e2; subst e1; subst e2
                exact ⟨S.ok, fun _ => S.proof rfl⟩
              | false =>
                simp only [Bool.false_eq_true, if_false] at h
                exact genloop_says f s4 v s' S.ok S' h

end

end WG.Reason
