import Verif.Reason.Built
import Verif.Reason.SubSpec
import Mathlib.Data.List.Pairwise

/-! # What building clauses gives -/
namespace WG.Reason

/-- Both are records, at the same place. -/
def SameRec (l k : Lit) : Prop := ∃ a us vs, l.atom = .app a us ∧ k.atom = .app a vs

/-- No two atoms of the list are one record. -/
def Clean (ls : List Lit) : Prop := ls.Pairwise fun l k => ¬ SameRec l k

theorem Clean.eq {ls : List Lit} (h : Clean ls) {l k : Lit} (hl : l ∈ ls) (hk : k ∈ ls) (hs : SameRec l k) : l = k := by
  by_contra hne
  haveI : Std.Symm fun l k => ¬ SameRec l k := ⟨fun l k h ⟨a, us, vs, h1, h2⟩ => h ⟨a, vs, us, h2, h1⟩⟩
  exact List.Pairwise.forall h hl hk hne hs

/-- The variables have numbers below 4000. -/
def Low (ls : List Lit) : Prop := ∀ l : Lit, l ∈ ls → ∀ v, v ∈ vars l.atom → v < 4000

/-- Signs and values of literals. -/
def meaning {D : Type} (M : Mem) (A : Alg D) (ρ : Nat → D) (ls : List Lit) : List (Bool × D) := ls.map fun l => (l.neg, ev M A ρ l.atom)

theorem true_iff {D : Type} {M : Mem} {I : Interp D} {ρ : Nat → D} {ls : List Lit} :
    (∃ l : Lit, l ∈ ls ∧ l.True M I ρ) ↔ ∃ p, p ∈ meaning M I.alg ρ ls ∧ if p.1 then ¬ I.holds p.2 else I.holds p.2 := by
  constructor
  · rintro ⟨l, hl, h⟩; exact ⟨_, List.mem_map_of_mem hl, h⟩
  · rintro ⟨p, hp, h⟩
    obtain ⟨l, hl, e⟩ := List.mem_map.1 hp
    subst e
    exact ⟨l, hl, h⟩

theorem meaning_cells {D : Type} {M M' : Mem} (h : Cells M M') (A : Alg D) (ρ : Nat → D) (ls : List Lit) :
    meaning M' A ρ ls = meaning M A ρ ls := List.map_congr_left fun l _ => by rw [ev_cells h]

theorem true_cells {D : Type} {M M' : Mem} (h : Cells M M') {I : Interp D} {c : Clause} : c.True M' I ↔ c.True M I := by
  constructor
  · intro hc ρ
    obtain ⟨l, hl, ht⟩ := hc ρ
    exact ⟨l, hl, by unfold Lit.True at ht ⊢; rwa [ev_cells h] at ht⟩
  · intro hc ρ
    obtain ⟨l, hl, ht⟩ := hc ρ
    exact ⟨l, hl, by unfold Lit.True at ht ⊢; rwa [ev_cells h]⟩

theorem exists_link {D : Type} {b : Bld} (hb : BOK b) (A : Alg D) (B : Nat) (ρ' : Nat → D) :
    ∃ ρ, Resp b.mem A ρ b.st ∧ Link B ρ ρ' := by
  obtain ⟨ρ, h1, h2⟩ := exists_resp (M := b.mem) hb.inv.wf A fun n => ρ' (B * 1000 + (n - 4000))
  refine ⟨ρ, h1, fun k hk => ?_⟩
  rw [h2 _ (hb.dom _ (by omega)), Nat.add_sub_cancel_left]

/-- What renaming a list of literals gives. -/
structure LSays (cfg : Cfg) (B : Nat) (b : Bld) (xs ls : List Lit) (b' : Bld) : Prop where
  grow : Grow b b'
  fine : ∀ l : Lit, l ∈ ls → Fine b'.mem l.atom
  low : Low ls
  addr : ∀ l : Lit, l ∈ ls → ∀ a us, l.atom = .app a us → b.next ≤ a
  clean : Clean ls
  eval : ∀ (D : Type) (I : Interp D) (ρ ρ' : Nat → D), I.Std cfg b.mem → Resp b'.mem I.alg ρ b'.st → Link B ρ ρ' →
    meaning b'.mem I.alg ρ' ls = meaning b.mem I.alg ρ xs

theorem buildLits_says {cfg : Cfg} {B : Nat} {bd : Bld → Term → Res (Option (Term × Bld))}
    (hbd : ∀ b x t b', BOK b → Fine b.mem x → bd b x = .ok (some (t, b')) → Says cfg B b x t b') :
    ∀ (xs : List Lit) (b : Bld) (ls : List Lit) (b' : Bld), BOK b → (∀ x : Lit, x ∈ xs → Fine b.mem x.atom) →
    buildLits bd b xs = .ok (some (ls, b')) → LSays cfg B b xs ls b'
  | [], b, ls, b', hb, _, h => by
    injection h with h; injection h with h; injection h with e1 e2; subst e1; subst e2
    exact ⟨hb.refl, fun t ht => (by cases ht), fun t ht => (by cases ht), fun t ht => (by cases ht), List.Pairwise.nil,
      fun _ _ _ _ _ _ _ => rfl⟩
  | x :: xs, b, ls, b', hb, hx, h => by
    rw [buildLits] at h
    obtain ⟨r, hr, h⟩ := bind_eq_ok h
    cases r with
    | none => cases h
    | some p =>
      obtain ⟨u, b1⟩ := p
      obtain ⟨r, hr', h⟩ := bind_eq_ok h
      cases r with
      | none => cases h
      | some p =>
        obtain ⟨us, b2⟩ := p
        injection h with h; injection h with h; injection h with e1 e2; subst e1; subst e2
        have P := hbd b x.atom u b1 hb (hx x (by simp)) hr
        have Q := buildLits_says hbd xs b1 us b2 P.grow.ok (fun y hy => fine_ext hb.blank P.grow.ext (hx y (by simp [hy]))) hr'
        refine ⟨P.grow.trans Q.grow, ?_, ?_, ?_, ?_, ?_⟩
        · intro t ht
          rcases List.mem_cons.1 ht with e | ht
          · subst e; exact fine_ext P.grow.ok.blank Q.grow.ext P.fine
          · exact Q.fine t ht
        · intro t ht
          rcases List.mem_cons.1 ht with e | ht
          · subst e; exact P.vars
          · exact Q.low t ht
        · intro t ht a vs e
          rcases List.mem_cons.1 ht with e' | ht
          · subst e'; exact P.addr a vs e
          · exact Nat.le_trans P.grow.ext.next (Q.addr t ht a vs e)
        · refine List.pairwise_cons.2 ⟨fun k hk ⟨a, vs, ws, h1, h2⟩ => ?_, Q.clean⟩
          have g1 := Q.addr k hk a ws h2
          have g2 : u = .app a vs := h1
          have g3 := P.fine
          rw [g2] at g3
          have := fine_below P.grow.ok.blank g3
          omega
        · intro D I ρ ρ' hI hR hL
          have e := Q.eval D I ρ ρ' (std_cells P.grow.ext.cells hI) hR hL
          rw [meaning_cells P.grow.ext.cells] at e
          simp only [meaning, List.map_cons] at e ⊢
          rw [e, ev_cells Q.grow.ext.cells, P.eval D I ρ ρ' hI (Q.grow.resp hR) hL]

/-- What rebuilding a clause gives. -/
structure CSays (cfg : Cfg) (b : Bld) (c c' : Clause) (b' : Bld) : Prop where
  grow : Grow b b'
  fine : c'.Fine b'.mem
  low : Low c'.lits
  clean : Clean c'.lits
  cons : ∀ (D : Type) (I : Interp D), I.Std cfg b.mem → c.True b.mem I → c'.True b'.mem I

theorem buildCl_says {cfg : Cfg} {comp : Bool} {B : Nat} (hB : B ≤ 3) {f : Nat} {b b' : Bld} {c c' : Clause} (hb : BOK b)
    (hc : c.Fine b.mem) (h : buildCl cfg comp (some B) f b c = .ok (some (c', b'))) : CSays cfg b c c' b' := by
  cases c with
  | fact a =>
    rw [buildCl] at h
    obtain ⟨r, hr, h⟩ := bind_eq_ok h
    cases r with
    | none => cases h
    | some p =>
      obtain ⟨u, b1⟩ := p
      cases u with
      | app a1 us =>
        injection h with h; injection h with h; injection h with e1 e2; subst e1; subst e2
        have P := build_says hB f b a _ _ hb (hc ⟨false, a⟩ (by simp [Clause.lits])) hr
        refine ⟨P.grow, ?_, ?_, by simp [Clean, Clause.lits], fun D I hI ht ρ' => ?_⟩
        · intro l hl
          simp only [Clause.lits, List.mem_singleton] at hl
          subst hl; exact P.fine
        · intro l hl
          simp only [Clause.lits, List.mem_singleton] at hl
          subst hl; exact P.vars
        · obtain ⟨ρ, h1, h2⟩ := exists_link P.grow.ok I.alg B ρ'
          obtain ⟨l, hl, ht⟩ := ht ρ
          simp only [Clause.lits, List.mem_singleton] at hl
          subst hl
          refine ⟨_, List.mem_singleton.2 rfl, ?_⟩
          unfold Lit.True at ht ⊢
          simp only at ht ⊢
          rw [P.eval D I ρ ρ' hI h1 h2]
          exact ht
      | _ => cases h
  | rule xs =>
    rw [buildCl] at h
    by_cases hr : cfg.room b.next = true
    · rw [if_pos hr] at h
      obtain ⟨r, hr', h⟩ := bind_eq_ok h
      cases r with
      | none => cases h
      | some p =>
        obtain ⟨us, b1⟩ := p
        injection h with h; injection h with h; injection h with e1 e2; subst e1; subst e2
        have hb0 : BOK { b with next := b.next + 1 } :=
          ⟨hb.inv, fun a ha => hb.blank a (Nat.le_trans (Nat.le_succ _) ha), hb.dom, hb.vc⟩
        have P := buildLits_says (build_says hB f) xs _ us b1 hb0 hc hr'
        have hg : Grow b b1 := ⟨⟨P.grow.ext.cells, Nat.le_trans (Nat.le_succ _) P.grow.ext.next,
          fun a ha => P.grow.ext.parts a (Nat.lt_succ_of_lt ha), P.grow.ext.blank⟩, P.grow.ok, P.grow.keep⟩
        refine ⟨hg, P.fine, P.low, P.clean, fun D I hI ht ρ' => ?_⟩
        obtain ⟨ρ, h1, h2⟩ := exists_link P.grow.ok I.alg B ρ'
        have := true_iff.1 (ht ρ)
        rw [show meaning b.mem I.alg ρ (Clause.rule xs).lits = meaning b1.mem I.alg ρ' us from (P.eval D I ρ ρ' hI h1 h2).symm] at this
        exact true_iff.2 this
    · rw [if_neg hr] at h; cases h

/-! ## Copying -/

structure Copy (b : Bld) (x t : Term) (b' : Bld) : Prop where
  ext : Ext b b'
  st : b'.st = b.st
  fine : Fine b'.mem t
  vars : vars t = vars x
  addr : ∀ a us, t = .app a us → b.next ≤ a
  eval : ∀ (D : Type) (A : Alg D) (ρ : Nat → D), ev b'.mem A ρ t = ev b.mem A ρ x

structure CopyL (b : Bld) (xs ts : List Term) (b' : Bld) : Prop where
  ext : Ext b b'
  st : b'.st = b.st
  fine : ∀ t, t ∈ ts → Fine b'.mem t
  vars : varsL ts = varsL xs
  eval : ∀ (D : Type) (A : Alg D) (ρ : Nat → D), evL b'.mem A ρ ts = evL b.mem A ρ xs

theorem Ext.refl {b : Bld} (h : Blank b.mem b.next) : Ext b b := ⟨Cells.rfl _, Nat.le_refl _, fun _ _ => rfl, h⟩

theorem copyLoop_says {bd : Bld → Term → Res (Option (Term × Bld))}
    (hbd : ∀ b x t b', Blank b.mem b.next → Fine b.mem x → bd b x = .ok (some (t, b')) → Copy b x t b') :
    ∀ (xs : List Term) (b : Bld) (ts : List Term) (b' : Bld), Blank b.mem b.next → (∀ x, x ∈ xs → Fine b.mem x) →
    buildLoop bd b xs = .ok (some (ts, b')) → CopyL b xs ts b'
  | [], b, ts, b', hb, _, h => by
    injection h with h; injection h with h; injection h with e1 e2; subst e1; subst e2
    exact ⟨.refl hb, rfl, fun t ht => (by cases ht), rfl, fun _ _ _ => rfl⟩
  | x :: xs, b, ts, b', hb, hx, h => by
    rw [buildLoop] at h
    obtain ⟨r, hr, h⟩ := bind_eq_ok h
    cases r with
    | none => cases h
    | some p =>
      obtain ⟨u, b1⟩ := p
      obtain ⟨r, hr', h⟩ := bind_eq_ok h
      cases r with
      | none => cases h
      | some p =>
        obtain ⟨us, b2⟩ := p
        injection h with h; injection h with h; injection h with e1 e2; subst e1; subst e2
        have P := hbd b x u b1 hb (hx x (by simp)) hr
        have Q := copyLoop_says hbd xs b1 us b2 P.ext.blank (fun y hy => fine_ext hb P.ext (hx y (by simp [hy]))) hr'
        refine ⟨P.ext.trans Q.ext, Q.st.trans P.st, ?_, ?_, ?_⟩
        · intro t ht
          rcases List.mem_cons.1 ht with e | ht
          · subst e; exact fine_ext P.ext.blank Q.ext P.fine
          · exact Q.fine t ht
        · simp only [varsL, P.vars, Q.vars]
        · intro D A ρ
          simp only [evL]
          rw [Q.eval D A ρ, ev_cells Q.ext.cells, P.eval D A ρ]
          congr 1
          rw [evL_map, evL_map]
          exact List.map_congr_left fun y _ => ev_cells P.ext.cells _ _ _

theorem copy_says {cfg : Cfg} : ∀ (f : Nat) (b : Bld) (x t : Term) (b' : Bld), Blank b.mem b.next →
    Fine b.mem x → build cfg false none f b x = .ok (some (t, b')) → Copy b x t b'
  | 0, _, _, _, _, _, _, h => by cases h
  | f + 1, b, x, t, b', hb, hx, h => by
    rw [build] at h
    simp only [buildDeref, bind_ok] at h
    cases hx with
    | @var n hn =>
      simp only [buildVar] at h
      injection h with h; injection h with h; injection h with e1 e2; subst e1; subst e2
      exact ⟨.refl hb, rfl, .var hn, rfl, fun a us e => (by cases e), fun _ _ _ => rfl⟩
    | con c =>
      injection h with h; injection h with h; injection h with e1 e2; subst e1; subst e2
      exact ⟨.refl hb, rfl, .con c, rfl, fun a us e => (by cases e), fun _ _ _ => rfl⟩
    | @app a ts h1 h2 =>
      simp only at h
      by_cases hr : cfg.room b.next = true
      · rw [if_pos hr] at h
        obtain ⟨r, hr', h⟩ := bind_eq_ok h
        cases r with
        | none => cases h
        | some p =>
          obtain ⟨us, b1⟩ := p
          have hb0 : Blank b.mem (b.next + 1) := fun a ha => hb a (Nat.le_trans (Nat.le_succ _) ha)
          have P := copyLoop_says (copy_says f) ts { b with next := b.next + 1 } us b1 hb0 h2 hr'
          simp only [buildRec, if_neg (Bool.false_ne_true)] at h
          injection h with h; injection h with h; injection h with e1 e2; subst e1; subst e2
          have hn : b.next < b1.next := P.ext.next
          have hp : b1.mem.parts b.next = [.nul] := (P.ext.parts b.next (Nat.lt_succ_self _)).trans (hb _ (Nat.le_refl _))
          obtain ⟨g1, g2, g3, g4⟩ := put_ext (us := us) P.ext.blank hn
          refine ⟨⟨P.ext.cells.trans g1, Nat.le_of_lt hn, fun a ha => ?_, g2⟩, P.st, .app g3 fun u hu => fine_put hp us (P.fine u hu),
            P.vars, fun a us e => ?_, fun D A ρ => ?_⟩
          · show (b1.mem.put b.next us).parts a = _
            rw [g4 a (by omega)]
            exact P.ext.parts a (Nat.lt_succ_of_lt ha)
          · injection e with e _; omega
          · simp only [ev]
            have := P.eval D A ρ
            rw [← this, evL_map, evL_map]
            congr 1
            exact List.map_congr_left fun y _ => ev_cells g1 _ _ _
      · rw [if_neg hr] at h; cases h

structure LCopy (b : Bld) (xs ls : List Lit) (b' : Bld) : Prop where
  ext : Ext b b'
  st : b'.st = b.st
  fine : ∀ l : Lit, l ∈ ls → Fine b'.mem l.atom
  low : Low xs → Low ls
  addr : ∀ l : Lit, l ∈ ls → ∀ a us, l.atom = .app a us → b.next ≤ a
  clean : Clean ls
  eval : ∀ (D : Type) (A : Alg D) (ρ : Nat → D), meaning b'.mem A ρ ls = meaning b.mem A ρ xs

theorem copyLits_says {bd : Bld → Term → Res (Option (Term × Bld))}
    (hbd : ∀ b x t b', Blank b.mem b.next → Fine b.mem x → bd b x = .ok (some (t, b')) → Copy b x t b') :
    ∀ (xs : List Lit) (b : Bld) (ls : List Lit) (b' : Bld), Blank b.mem b.next → (∀ x : Lit, x ∈ xs → Fine b.mem x.atom) →
    buildLits bd b xs = .ok (some (ls, b')) → LCopy b xs ls b'
  | [], b, ls, b', hb, _, h => by
    injection h with h; injection h with h; injection h with e1 e2; subst e1; subst e2
    exact ⟨.refl hb, rfl, fun t ht => (by cases ht), fun h => h, fun t ht => (by cases ht), List.Pairwise.nil, fun _ _ _ => rfl⟩
  | x :: xs, b, ls, b', hb, hx, h => by
    rw [buildLits] at h
    obtain ⟨r, hr, h⟩ := bind_eq_ok h
    cases r with
    | none => cases h
    | some p =>
      obtain ⟨u, b1⟩ := p
      obtain ⟨r, hr', h⟩ := bind_eq_ok h
      cases r with
      | none => cases h
      | some p =>
        obtain ⟨us, b2⟩ := p
        injection h with h; injection h with h; injection h with e1 e2; subst e1; subst e2
        have P := hbd b x.atom u b1 hb (hx x (by simp)) hr
        have Q := copyLits_says hbd xs b1 us b2 P.ext.blank (fun y hy => fine_ext hb P.ext (hx y (by simp [hy]))) hr'
        refine ⟨P.ext.trans Q.ext, Q.st.trans P.st, ?_, ?_, ?_, ?_, ?_⟩
        · intro t ht
          rcases List.mem_cons.1 ht with e | ht
          · subst e; exact fine_ext P.ext.blank Q.ext P.fine
          · exact Q.fine t ht
        · intro hl t ht
          rcases List.mem_cons.1 ht with e | ht
          · subst e
            intro v hv
            exact hl x (by simp) v (by rw [← P.vars]; exact hv)
          · exact Q.low (fun l h => hl l (by simp [h])) t ht
        · intro t ht a vs e
          rcases List.mem_cons.1 ht with e' | ht
          · subst e'; exact P.addr a vs e
          · exact Nat.le_trans P.ext.next (Q.addr t ht a vs e)
        · refine List.pairwise_cons.2 ⟨fun k hk ⟨a, vs, ws, h1, h2⟩ => ?_, Q.clean⟩
          have g1 := Q.addr k hk a ws h2
          have g2 : u = .app a vs := h1
          have g3 := P.fine
          rw [g2] at g3
          have := fine_below P.ext.blank g3
          omega
        · intro D A ρ
          have e := Q.eval D A ρ
          rw [meaning_cells P.ext.cells] at e
          simp only [meaning, List.map_cons] at e ⊢
          rw [e, ev_cells Q.ext.cells, P.eval D A ρ]

/-- What copying a clause gives. -/
structure CCopy (b : Bld) (xs : List Lit) (c' : Clause) (b' : Bld) : Prop where
  ext : Ext b b'
  st : b'.st = b.st
  fine : c'.Fine b'.mem
  low : Low xs → Low c'.lits
  clean : Clean c'.lits
  eval : ∀ (D : Type) (A : Alg D) (ρ : Nat → D), meaning b'.mem A ρ c'.lits = meaning b.mem A ρ xs

theorem copyRes_says {cfg : Cfg} {f : Nat} {b b' : Bld} {r : List Lit} {c : Clause} (hb : Blank b.mem b.next)
    (hr : ∀ l : Lit, l ∈ r → Fine b.mem l.atom) (h : copyRes cfg f r b = .ok (some (c, b'))) : CCopy b r c b' := by
  unfold copyRes at h
  by_cases hf : factLike r = true
  · rw [if_pos hf] at h
    obtain ⟨a, ts, e⟩ : ∃ a ts, r = [⟨false, .app a ts⟩] := by
      unfold factLike at hf
      split at hf
      · exact ⟨_, _, rfl⟩
      · cases hf
    subst e
    rw [buildCl] at h
    obtain ⟨p, hp, h⟩ := bind_eq_ok h
    cases p with
    | none => cases h
    | some p =>
      obtain ⟨u, b1⟩ := p
      cases u with
      | app a1 us =>
        injection h with h; injection h with h; injection h with e1 e2; subst e1; subst e2
        have P := copy_says f b _ _ _ hb (hr ⟨false, .app a ts⟩ (by simp)) hp
        refine ⟨P.ext, P.st, ?_, ?_, by simp [Clean, Clause.lits], fun D A ρ => ?_⟩
        · intro l hl
          simp only [Clause.lits, List.mem_singleton] at hl
          subst hl; exact P.fine
        · intro hlow l hl
          simp only [Clause.lits, List.mem_singleton] at hl
          subst hl
          intro v hv
          rw [P.vars] at hv
          exact hlow _ (by simp) v hv
        · simp only [Clause.lits, meaning, List.map_cons, List.map_nil, P.eval]
      | _ => cases h
  · rw [if_neg hf, buildCl] at h
    by_cases hr' : cfg.room b.next = true
    · rw [if_pos hr'] at h
      obtain ⟨p, hp, h⟩ := bind_eq_ok h
      cases p with
      | none => cases h
      | some p =>
        obtain ⟨us, b1⟩ := p
        injection h with h; injection h with h; injection h with e1 e2; subst e1; subst e2
        have hb0 : Blank b.mem (b.next + 1) := fun a ha => hb a (Nat.le_trans (Nat.le_succ _) ha)
        have P := copyLits_says (copy_says f) r { b with next := b.next + 1 } us b1 hb0 hr hp
        exact ⟨⟨P.ext.cells, Nat.le_trans (Nat.le_succ _) P.ext.next, fun a ha => P.ext.parts a (Nat.lt_succ_of_lt ha), P.ext.blank⟩,
          P.st, P.fine, P.low, P.clean, P.eval⟩
    · rw [if_neg hr'] at h; cases h

end WG.Reason
