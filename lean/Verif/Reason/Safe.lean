import Verif.Reason.Sound
import Verif.Reason.Flat

/-! # Building plain clauses is safe -/
namespace WG.Reason

/-- Not `bad`, and `Q` of the result if there is one. -/
def Safe {α : Type} (r : Res α) (Q : α → Prop) : Prop := r ≠ .bad ∧ ∀ a, r = .ok a → Q a

theorem safe_ok {α : Type} {a : α} {Q : α → Prop} (h : Q a) : Safe (.ok a) Q := ⟨by simp, fun b e => by injection e with e; subst e; exact h⟩
theorem safe_out {α : Type} {Q : α → Prop} : Safe (.out) Q := ⟨by simp, fun b e => by cases e⟩

theorem Safe.bind {α β : Type} {r : Res α} {k : α → Res β} {Q : α → Prop} {Q' : β → Prop} (h : Safe r Q)
    (hk : ∀ a, r = .ok a → Q a → Safe (k a) Q') : Safe (r.bind k) Q' := by
  cases r with
  | out => exact safe_out
  | bad => exact absurd rfl h.1
  | ok a => exact hk a rfl (h.2 a rfl)

theorem Safe.mono {α : Type} {r : Res α} {Q Q' : α → Prop} (h : Safe r Q) (hq : ∀ a, r = .ok a → Q a → Q' a) : Safe r Q' :=
  ⟨h.1, fun a e => hq a e (h.2 a e)⟩

def OSafe {α : Type} (r : Res (Option α)) (Q : α → Prop) : Prop := Safe r fun o => ∀ p, o = some p → Q p

theorem osafe_some {α : Type} {a : α} {Q : α → Prop} (h : Q a) : OSafe (.ok (some a)) Q :=
  safe_ok fun p e => by injection e with e; subst e; exact h
theorem osafe_none {α : Type} {Q : α → Prop} : OSafe (.ok none) Q := safe_ok fun p e => by cases e

theorem OSafe.bind {α β : Type} {r : Res (Option α)} {k : Option α → Res (Option β)} {Q : α → Prop} {Q' : β → Prop} (h : OSafe r Q)
    (h0 : k none = .ok none) (hk : ∀ a, r = .ok (some a) → Q a → OSafe (k (some a)) Q') : OSafe (r.bind k) Q' := by
  refine Safe.bind h fun o ho hq => ?_
  cases o with
  | none => rw [h0]; exact osafe_none
  | some a => exact hk a ho (hq a rfl)

theorem OSafe.mono {α : Type} {r : Res (Option α)} {Q Q' : α → Prop} (h : OSafe r Q) (hq : ∀ a, r = .ok (some a) → Q a → Q' a) :
    OSafe r Q' := Safe.mono h fun o ho g p e => hq p (by rw [ho, e]) (g p e)

/-- No variable has a record as its value. -/
def FlatSt (s : St) : Prop := ∀ n t, s.bank n = some t → t.isRec = false

theorem Plain.flat {t : Term} (h : Plain t) : Flat t := by
  cases h with
  | app _ _ h3 =>
    refine .app fun t ht => ?_
    rcases List.mem_cons.1 ht with e | ht
    · subst e; rfl
    · exact h3 t ht

theorem Clause.Plain.flat {c : Clause} (h : c.Plain) : c.Flat := fun l hl => (h.2 l hl).flat

theorem varval_flat {s : St} (h : FlatSt s) : ∀ (f n : Nat) (t : Term), varval f s n = .ok t → t.isRec = false
  | 0, _, _, e => by cases e
  | f + 1, n, t, e => by
    rw [varval] at e
    obtain ⟨o, ho, e⟩ := bind_eq_ok e
    have hb : s.bank n = o := by
      rw [St.get] at ho
      split at ho
      · injection ho
      · cases ho
    match o, hb, e with
    | none, _, e => injection e with e; subst e; rfl
    | some (.var m), _, e => exact varval_flat h f m t e
    | some (.con c), _, e => injection e with e; subst e; rfl
    | some .nul, hb, e => injection e with e; subst e; exact h n _ hb
    | some (.app a ts), hb, e => injection e with e; subst e; exact h n _ hb

theorem deref_flat {s : St} (h : FlatSt s) {f : Nat} {x t : Term} (hx : x.isRec = false) (e : deref f s x = .ok t) : t.isRec = false := by
  cases x with
  | var n => exact varval_flat h f n t e
  | con c => injection e with e; subst e; rfl
  | nul => cases hx
  | app a ts => cases hx

theorem upd_flat {s : St} (h : FlatSt s) {n : Nat} {t : Term} (ht : t.isRec = false) : FlatSt (s.upd n t) := by
  intro m w hm
  by_cases e : m = n
  · subst e; rw [upd_same] at hm; injection hm with hm; subst hm; exact ht
  · rw [upd_other e] at hm; exact h m w hm

/-! ## Building -/

structure Part (x : Term) (t : Term) (b' : Bld) : Prop where
  flat : FlatSt b'.st
  one : t.isRec = false
  con : ∀ c, x = .con c → t = .con c

variable {cfg : Cfg} {comp : Bool}

theorem buildPart_safe {B : Nat} {f : Nat} {b : Bld} {x : Term} (hb : BOK b) (hfl : FlatSt b.st) (hx : Fine b.mem x)
    (hr : x.isRec = false) : OSafe (build cfg comp (some B) f b x) fun p => Part x p.1 p.2 := by
  cases f with
  | zero => exact safe_out
  | succ f =>
    rw [build]
    refine Safe.bind (Q := fun t => t.isRec = false) ⟨deref_ne_bad hb.inv hx, fun t e => deref_flat hfl hr e⟩ fun t ht h1 => ?_
    have d := deref_ok hb.inv hx ht
    cases hd : d.fine with
    | @var n hn =>
      have hne : ∀ c, x ≠ .con c := by
        intro c e; subst e; injection ht with ht; cases ht
      simp only [buildVar]
      by_cases hlt : n < 4000
      · rw [if_pos hlt]
        by_cases hv : 1000 ≤ b.vc
        · rw [if_pos hv]; exact osafe_none
        · rw [if_neg hv, set_ok hb.inv hn (d.unbound n rfl), bind_ok]
          exact osafe_some ⟨upd_flat hfl rfl, rfl, fun c e => absurd e (hne c)⟩
      · rw [if_neg hlt]
        exact osafe_some ⟨hfl, rfl, fun c e => absurd e (hne c)⟩
    | con c =>
      refine osafe_some ⟨hfl, rfl, fun c' e => ?_⟩
      subst e; injection ht with ht; exact ht.symm
    | app _ _ => cases h1

theorem buildParts_safe {B : Nat} (hB : B ≤ 3) {f : Nat} : ∀ (xs : List Term) (b : Bld), BOK b → FlatSt b.st →
    (∀ x, x ∈ xs → Fine b.mem x) → (∀ x : Term, x ∈ xs → x.isRec = false) →
    OSafe (buildLoop (build cfg comp (some B) f) b xs) fun p => FlatSt p.2.st ∧ (∀ t : Term, t ∈ p.1 → t.isRec = false) ∧
      ∀ c ys, xs = .con c :: ys → ∃ us, p.1 = .con c :: us
  | [], b, _, hfl, _, _ => osafe_some ⟨hfl, fun t ht => (by cases ht), fun c ys e => (by cases e)⟩
  | x :: xs, b, hb, hfl, hx, hr => by
    rw [buildLoop]
    refine OSafe.bind (buildPart_safe hb hfl (hx x (by simp)) (hr x (by simp))) rfl fun p e P => ?_
    obtain ⟨u, b1⟩ := p
    have S := build_says hB f b x u b1 hb (hx x (by simp)) e
    refine OSafe.bind (buildParts_safe hB xs b1 S.grow.ok P.flat (fun y hy => fine_ext hb.blank S.grow.ext (hx y (by simp [hy])))
      (fun y hy => hr y (by simp [hy]))) rfl fun q e2 Q => ?_
    refine osafe_some ⟨Q.1, fun t ht => ?_, fun c ys e => ?_⟩
    · rcases List.mem_cons.1 ht with h | h
      · subst h; exact P.one
      · exact Q.2.1 t h
    · injection e with e _
      have h := P.con c e
      simp only at h
      exact ⟨q.1, by simp [h]⟩

theorem compute_plain {M : Mem} {c : Const} {ts : List Term} (h1 : c ≠ aPlus) (h2 : c ≠ aEqual) :
    compute cfg M (.con c :: ts) = .ok none := by
  match ts with
  | [] => rfl
  | [_] => rfl
  | _ :: _ :: _ => rw [compute, if_neg h1, if_neg h2]

theorem buildRec_plain {a : Nat} {c : Const} {us : List Term} {b : Bld} (h1 : c ≠ aPlus) (h2 : c ≠ aEqual) :
    buildRec cfg comp a (.con c :: us) b = .ok (some (.app a (.con c :: us), { b with mem := b.mem.put a (.con c :: us) })) := by
  rw [buildRec, compute_plain h1 h2]
  cases comp <;> rfl

theorem buildAtom_safe {B : Nat} (hB : B ≤ 3) {f : Nat} {b : Bld} {x : Term} (hb : BOK b) (hfl : FlatSt b.st) (hx : Fine b.mem x)
    (hp : Plain x) : OSafe (build cfg comp (some B) f b x) fun p => FlatSt p.2.st ∧ Plain p.1 := by
  cases f with
  | zero => exact safe_out
  | succ f =>
    cases hp with
    | @app a c ts h1 h2 h3 =>
      cases hx with
      | app hx1 hx2 =>
        rw [build]
        simp only [buildDeref, deref, bind_ok]
        by_cases hr : cfg.room b.next = true
        · rw [if_pos hr]
          have hb0 : BOK { b with next := b.next + 1 } :=
            ⟨hb.inv, fun a ha => hb.blank a (Nat.le_trans (Nat.le_succ _) ha), hb.dom, hb.vc⟩
          refine OSafe.bind (buildParts_safe hB _ _ hb0 hfl hx2 ?_) rfl fun p e P => ?_
          · intro t ht
            rcases List.mem_cons.1 ht with e | ht
            · subst e; rfl
            · exact h3 t ht
          · obtain ⟨us, b1⟩ := p
            obtain ⟨Q1, Q2, Q3⟩ := P
            obtain ⟨vs, e⟩ := Q3 c ts rfl
            simp only at e Q1 Q2
            subst e
            simp only [buildRec_plain h1 h2]
            exact osafe_some ⟨Q1, .app h1 h2 fun t ht => Q2 t (by simp [ht])⟩
        · rw [if_neg hr]; exact osafe_none

theorem copyParts_safe {f : Nat} : ∀ (xs : List Term) (b : Bld), (∀ x, x ∈ xs → Fine b.mem x) → (∀ x : Term, x ∈ xs → x.isRec = false) →
    OSafe (buildLoop (build cfg false none f) b xs) fun p => p.1 = xs ∧ p.2 = b
  | [], b, _, _ => osafe_some ⟨rfl, rfl⟩
  | x :: xs, b, hx, hr => by
    rw [buildLoop]
    have one : OSafe (build cfg false none f b x) fun p => p = (x, b) := by
      cases f with
      | zero => exact safe_out
      | succ f =>
        rw [build]
        simp only [buildDeref, bind_ok]
        cases hx x (by simp) with
        | var hn => exact osafe_some rfl
        | con c => exact osafe_some rfl
        | app _ _ => have := hr _ (List.mem_cons_self); cases this
    refine OSafe.bind one rfl fun p e P => ?_
    subst P
    refine OSafe.bind (copyParts_safe xs b (fun y hy => hx y (by simp [hy])) (fun y hy => hr y (by simp [hy]))) rfl fun q e2 Q => ?_
    obtain ⟨us, b2⟩ := q
    obtain ⟨Q1, Q2⟩ := Q
    simp only at Q1 Q2
    subst Q1; subst Q2
    exact osafe_some ⟨rfl, rfl⟩

theorem copyAtom_safe {f : Nat} {b : Bld} {x : Term} (hx : Fine b.mem x) (hp : Plain x) :
    OSafe (build cfg false none f b x) fun p => Plain p.1 := by
  cases f with
  | zero => exact safe_out
  | succ f =>
    cases hp with
    | @app a c ts h1 h2 h3 =>
      cases hx with
      | app hx1 hx2 =>
        rw [build]
        simp only [buildDeref, bind_ok]
        by_cases hr : cfg.room b.next = true
        · rw [if_pos hr]
          refine OSafe.bind (copyParts_safe _ { b with next := b.next + 1 } hx2 ?_) rfl fun p e P => ?_
          · intro t ht
            rcases List.mem_cons.1 ht with e | ht
            · subst e; rfl
            · exact h3 t ht
          · obtain ⟨us, b1⟩ := p
            obtain ⟨Q1, Q2⟩ := P
            simp only at Q1 Q2
            subst Q1
            simp only [buildRec_plain h1 h2]
            exact osafe_some (.app h1 h2 h3)
        · rw [if_neg hr]; exact osafe_none

/-! ## Clauses -/

theorem buildLits_safe {bd : Bld → Term → Res (Option (Term × Bld))} {G : Bld → Prop}
    (hbd : ∀ b x, G b → Fine b.mem x → Plain x → OSafe (bd b x) fun p => G p.2 ∧ Plain p.1 ∧ ∀ t, Fine b.mem t → Fine p.2.mem t) :
    ∀ (ls : List Lit) (b : Bld), G b → (∀ l : Lit, l ∈ ls → Fine b.mem l.atom ∧ Plain l.atom) →
    OSafe (buildLits bd b ls) fun p => (∀ l : Lit, l ∈ p.1 → Plain l.atom) ∧ p.1.length = ls.length
  | [], b, _, _ => osafe_some ⟨fun l hl => (by cases hl), rfl⟩
  | l :: ls, b, hb, hls => by
    rw [buildLits]
    refine OSafe.bind (hbd b l.atom hb (hls l (by simp)).1 (hls l (by simp)).2) rfl fun p e P => ?_
    obtain ⟨u, b1⟩ := p
    obtain ⟨P1, P2, P3⟩ := P
    refine OSafe.bind (buildLits_safe hbd ls b1 P1 fun k hk => ⟨P3 _ (hls k (by simp [hk])).1, (hls k (by simp [hk])).2⟩) rfl
      fun q e2 Q => ?_
    refine osafe_some ⟨fun k hk => ?_, by simp [Q.2]⟩
    rcases List.mem_cons.1 hk with h | h
    · subst h; exact P2
    · exact Q.1 k h

theorem buildAtom_safe' {B : Nat} (hB : B ≤ 3) {f : Nat} (b : Bld) (x : Term) (hb : BOK b ∧ FlatSt b.st) (hx : Fine b.mem x)
    (hp : Plain x) : OSafe (build cfg comp (some B) f b x) fun p =>
      (BOK p.2 ∧ FlatSt p.2.st) ∧ Plain p.1 ∧ ∀ t, Fine b.mem t → Fine p.2.mem t := by
  refine (buildAtom_safe hB hb.1 hb.2 hx hp).mono fun p e P => ?_
  have S := build_says hB f b x p.1 p.2 hb.1 hx e
  exact ⟨⟨S.grow.ok, P.1⟩, P.2, fun t ht => fine_ext hb.1.blank S.grow.ext ht⟩

theorem copyAtom_safe' {f : Nat} (b : Bld) (x : Term) (hb : Blank b.mem b.next) (hx : Fine b.mem x) (hp : Plain x) :
    OSafe (build cfg false none f b x) fun p => Blank p.2.mem p.2.next ∧ Plain p.1 ∧ ∀ t, Fine b.mem t → Fine p.2.mem t := by
  refine (copyAtom_safe hx hp).mono fun p e P => ?_
  have S := copy_says f b x p.1 p.2 hb hx e
  exact ⟨S.ext.blank, P, fun t ht => fine_ext hb S.ext ht⟩

theorem buildCl_safe {mode : Option Nat} {f : Nat} {G : Bld → Prop}
    (hbd : ∀ b x, G b → Fine b.mem x → Plain x → OSafe (build cfg comp mode f b x) fun p =>
      G p.2 ∧ Plain p.1 ∧ ∀ t, Fine b.mem t → Fine p.2.mem t)
    (hG : ∀ b : Bld, G b → G { b with next := b.next + 1 }) {b : Bld} {c : Clause} (hb : G b) (hc : c.Fine b.mem) (hp : c.Plain) :
    OSafe (buildCl cfg comp mode f b c) fun p => p.1.Plain := by
  cases c with
  | fact a =>
    rw [buildCl]
    refine OSafe.bind (hbd b a hb (hc ⟨false, a⟩ (by simp [Clause.lits])) (hp.2 ⟨false, a⟩ (by simp [Clause.lits]))) rfl fun p e P => ?_
    obtain ⟨u, b1⟩ := p
    obtain ⟨_, P2, _⟩ := P
    simp only at P2
    cases P2 with
    | app h1 h2 h3 =>
      refine osafe_some ⟨by simp [Clause.lits], fun l hl => ?_⟩
      simp only [Clause.lits, List.mem_singleton] at hl
      subst hl
      exact .app h1 h2 h3
  | rule ls =>
    rw [buildCl]
    by_cases hr : cfg.room b.next = true
    · rw [if_pos hr]
      refine OSafe.bind (buildLits_safe hbd ls _ (hG b hb) fun l hl => ⟨hc l hl, hp.2 l hl⟩) rfl fun p e P => ?_
      refine osafe_some ⟨fun e => ?_, P.1⟩
      have h0 := hp.1
      have h1 := P.2
      simp only [Clause.lits] at e h0
      rw [e] at h1
      exact h0 (List.length_eq_zero_iff.1 h1.symm)
    · rw [if_neg hr]; exact osafe_none

theorem buildCl_plain {B : Nat} (hB : B ≤ 3) {f : Nat} {b : Bld} {c : Clause} (hb : BOK b) (hfl : FlatSt b.st) (hc : c.Fine b.mem)
    (hp : c.Plain) : OSafe (buildCl cfg comp (some B) f b c) fun p => p.1.Plain :=
  buildCl_safe (G := fun b => BOK b ∧ FlatSt b.st) (buildAtom_safe' hB)
    (fun _ h => ⟨⟨h.1.inv, fun a ha => h.1.blank a (Nat.le_trans (Nat.le_succ _) ha), h.1.dom, h.1.vc⟩, h.2⟩) ⟨hb, hfl⟩ hc hp

theorem copyRes_plain {f : Nat} {b : Bld} {r : List Lit} (hb : Blank b.mem b.next) (hr : ∀ l : Lit, l ∈ r → Fine b.mem l.atom)
    (hne : r ≠ []) (hp : ∀ l : Lit, l ∈ r → Plain l.atom) : OSafe (copyRes cfg f r b) fun p => p.1.Plain := by
  have key : ∀ c : Clause, c.Fine b.mem → c.Plain → OSafe (buildCl cfg false none f b c) fun p => p.1.Plain := fun c h1 h2 =>
    buildCl_safe (G := fun b => Blank b.mem b.next) copyAtom_safe' (fun _ h a ha => h a (Nat.le_trans (Nat.le_succ _) ha)) hb h1 h2
  unfold copyRes
  by_cases hf : factLike r = true
  · rw [if_pos hf]
    cases r with
    | nil => exact absurd rfl hne
    | cons l ls =>
      have hm : ∀ k : Lit, k ∈ (Clause.fact l.atom).lits → k.atom = l.atom := by
        intro k hk
        simp only [Clause.lits, List.mem_singleton] at hk
        rw [hk]
      exact key _ (fun k hk => by rw [hm k hk]; exact hr l (by simp))
        ⟨by simp [Clause.lits], fun k hk => by rw [hm k hk]; exact hp l (by simp)⟩
  · rw [if_neg hf]
    exact key _ hr ⟨hne, hp⟩

/-! ## The literals of a result -/

theorem dupLoop_safe {M : Mem} {l : Lit} (hl : Plain l.atom) : ∀ (ks : List Lit), (∀ k : Lit, k ∈ ks → Plain k.atom) →
    Safe (dupLoop M l ks) fun _ => True
  | [], _ => safe_ok trivial
  | k :: ks, hk => by
    rw [dupLoop]
    obtain ⟨b, hb⟩ := equalTerm_flat (M := M) hl.flat (hk k (by simp)).flat
    rw [hb, bind_ok]
    cases b with
    | true => exact safe_ok trivial
    | false => exact dupLoop_safe hl ks fun k h => hk k (by simp [h])

theorem addLit_safe {M : Mem} {l : Lit} {r : List Lit} (hl : Plain l.atom) (hr : ∀ k : Lit, k ∈ r → Plain k.atom) :
    OSafe (addLit M l r) fun r' => ∀ k : Lit, k ∈ r' → Plain k.atom := by
  rw [addLit]
  by_cases h1 : l.atom.same (.con aTrue) = true
  · rw [if_pos h1]
    by_cases hn : l.neg = true
    · rw [if_pos hn]; exact osafe_some hr
    · rw [if_neg hn]; exact osafe_none
  · rw [if_neg h1]
    by_cases h2 : l.atom.same (.con aFalse) = true
    · rw [if_pos h2]
      by_cases hn : l.neg = true
      · rw [if_pos hn]; exact osafe_none
      · rw [if_neg hn]; exact osafe_some hr
    · rw [if_neg h2]
      refine Safe.bind (dupLoop_safe hl r hr) fun o _ _ => ?_
      match o with
      | none =>
        refine osafe_some fun k hk => ?_
        rcases List.mem_append.1 hk with h | h
        · exact hr k h
        · rw [List.mem_singleton.1 h]; exact hl
      | some true => exact osafe_some hr
      | some false => exact osafe_none

/-- The literals so far are plain. -/
def PlainR (r : Option (List Lit)) : Prop := ∀ ls, r = some ls → ∀ k : Lit, k ∈ ls → Plain k.atom

theorem auxLoop_safe {B : Nat} (hB : B ≤ 3) {f : Nat} (cut : Term) : ∀ (ls : List Lit) (b : Bld) (r : List Lit), BOK b → FlatSt b.st →
    (∀ l : Lit, l ∈ ls → Fine b.mem l.atom ∧ Plain l.atom) → (∀ k : Lit, k ∈ r → Plain k.atom) →
    OSafe (auxLoop (build cfg comp (some B) f) cut ls b r) fun p => PlainR p.1 ∧ FlatSt p.2.st
  | [], b, r, _, hfl, _, hr => osafe_some ⟨fun ls e => by injection e with e; subst e; exact hr, hfl⟩
  | l :: ls, b, r, hb, hfl, hls, hr => by
    rw [auxLoop]
    by_cases hc : l.atom.same cut = true
    · rw [if_pos hc]
      exact auxLoop_safe hB cut ls b r hb hfl (fun l h => hls l (by simp [h])) hr
    · rw [if_neg hc]
      refine OSafe.bind (buildAtom_safe' hB b l.atom ⟨hb, hfl⟩ (hls l (by simp)).1 (hls l (by simp)).2) rfl fun p e P => ?_
      obtain ⟨u, b1⟩ := p
      obtain ⟨⟨P1, P2⟩, P3, P4⟩ := P
      refine Safe.bind (addLit_safe (l := ⟨l.neg, u⟩) P3 hr) fun o _ hq => ?_
      cases o with
      | none => exact osafe_some ⟨fun ls e => (by cases e), P2⟩
      | some r1 =>
        exact auxLoop_safe hB cut ls b1 r1 P1 P2 (fun l h => ⟨P4 _ (hls l (by simp [h])).1, (hls l (by simp [h])).2⟩) (hq r1 rfl)

theorem auxCl_safe {B : Nat} (hB : B ≤ 3) {f : Nat} {cut : Term} {c : Clause} {b : Bld} {r : List Lit} (hb : BOK b) (hfl : FlatSt b.st)
    (hc : c.Fine b.mem) (hp : c.Plain) (hr : ∀ k : Lit, k ∈ r → Plain k.atom) :
    OSafe (auxCl (build cfg comp (some B) f) c cut b r) fun p => PlainR p.1 ∧ FlatSt p.2.st := by
  rw [auxCl]
  by_cases hl : 1 < c.lits.length
  · rw [if_pos hl]; exact auxLoop_safe hB cut _ b r hb hfl (fun l h => ⟨hc l h, hp.2 l h⟩) hr
  · rw [if_neg hl]; exact osafe_some ⟨fun ls e => by injection e with e; subst e; exact hr, hfl⟩

theorem auxBoth_safe {B : Nat} (hB : B ≤ 3) {f : Nat} {x y : Term} {xcl ycl : Clause} {b : Bld} (hb : BOK b) (hfl : FlatSt b.st)
    (hx : xcl.Fine b.mem) (hy : ycl.Fine b.mem) (px : xcl.Plain) (py : ycl.Plain) :
    OSafe (auxBoth (build cfg comp (some B) f) x xcl y ycl b) fun p => PlainR p.1 := by
  rw [auxBoth]
  refine OSafe.bind (auxCl_safe hB hb hfl hx px fun k hk => by cases hk) rfl fun p e P => ?_
  obtain ⟨o, b1⟩ := p
  obtain ⟨P1, P2⟩ := P
  cases o with
  | none => exact osafe_some fun ls e => (by cases e)
  | some r1 =>
    have G := auxCl_grow (build_says hB f) hb hx e
    exact (auxCl_safe hB G.ok P2 (fun l hl => fine_ext hb.blank G.ext (hy l hl)) py (P1 r1 rfl)).mono fun q _ Q => Q.1

/-! ## Unification of plain atoms -/

theorem unifyPart_flat {M : Mem} : ∀ (f : Nat) (s : St) (x y : Term) (b : Bool) (s' : St), FlatSt s → x.isRec = false → y.isRec = false →
    unify M f s x y = .ok (b, s') → FlatSt s'
  | 0, _, _, _, _, _, _, _, _, h => by cases h
  | f + 1, s, x, y, b, s', hs, hx, hy, h => by
    rw [unify] at h
    by_cases h1 : x.same y = true
    · rw [if_pos h1] at h; injection h with h; injection h with _ e; subst e; exact hs
    · rw [if_neg h1] at h
      obtain ⟨x', e1, h⟩ := bind_eq_ok h
      obtain ⟨y', e2, h⟩ := bind_eq_ok h
      have hx' := deref_flat hs hx e1
      have hy' := deref_flat hs hy e2
      by_cases h2 : x'.same y' = true
      · rw [if_pos h2] at h; injection h with h; injection h with _ e; subst e; exact hs
      · rw [if_neg h2] at h
        have set : ∀ n t, t.isRec = false → ((s.set n t).bind fun s => Res.ok (true, s)) = Res.ok (b, s') → FlatSt s' := by
          intro n t ht h
          obtain ⟨s1, h1, h⟩ := bind_eq_ok h
          injection h with h; injection h with _ e; subst e
          rw [St.set] at h1
          split at h1
          · injection h1 with h1; subst h1
            exact upd_flat hs ht
          · cases h1
        cases x' with
        | nul => cases hx'
        | app a ts => cases hx'
        | var n =>
          cases y' with
          | nul => cases hy'
          | app a ts => cases hy'
          | var m => exact set n (.var m) rfl h
          | con c => exact set n (.con c) rfl h
        | con c =>
          cases y' with
          | nul => cases hy'
          | app a ts => cases hy'
          | var m => exact set m (.con c) rfl h
          | con d => injection h with h; injection h with _ e; subst e; exact hs

theorem unifyParts_flat {M : Mem} {f : Nat} : ∀ (ts us : List Term) (s : St) (b : Bool) (s' : St), FlatSt s →
    (∀ t : Term, t ∈ ts → t.isRec = false) → (∀ t : Term, t ∈ us → t.isRec = false) →
    unifyLoop (unify M f) s ts us = .ok (b, s') → FlatSt s'
  | t :: ts, u :: us, s, b, s', hs, h1, h2, h => by
    rw [unifyLoop] at h
    by_cases he : t.same u = true
    · rw [if_pos he] at h
      exact unifyParts_flat ts us s b s' hs (fun t h => h1 t (by simp [h])) (fun t h => h2 t (by simp [h])) h
    · rw [if_neg he] at h
      obtain ⟨⟨r, s1⟩, hr, h⟩ := bind_eq_ok h
      have hs1 := unifyPart_flat f s t u r s1 hs (h1 t (by simp)) (h2 u (by simp)) hr
      cases r with
      | true => exact unifyParts_flat ts us s1 b s' hs1 (fun t h => h1 t (by simp [h])) (fun t h => h2 t (by simp [h])) h
      | false => injection h with h; injection h with _ e; subst e; exact hs1
  | [], us, s, b, s', hs, _, _, h => by
    rw [unifyLoop] at h
    · injection h with h; injection h with _ e; subst e; exact hs
    · intros; simp_all
  | _ :: _, [], s, b, s', hs, _, _, h => by
    rw [unifyLoop] at h
    · injection h with h; injection h with _ e; subst e; exact hs
    · intros; simp_all

theorem unifyAtom_flat {M : Mem} {f : Nat} {s : St} {x y : Term} {b : Bool} {s' : St} (hs : FlatSt s) (hx : Flat x) (hy : Flat y)
    (h : unify M f s x y = .ok (b, s')) : FlatSt s' := by
  cases f with
  | zero => cases h
  | succ f =>
    cases hx with
    | @app a ts h1 =>
      cases hy with
      | @app a' us h2 =>
        rw [unify] at h
        simp only [deref, bind_ok] at h
        by_cases he : (Term.app a ts).same (.app a' us) = true
        · rw [if_pos he] at h; injection h with h; injection h with _ e; subst e; exact hs
        · rw [if_neg he, if_neg he] at h
          simp only [ladder, Term.parts, bind_ok] at h
          split at h
          · injection h with h; injection h with _ e; subst e; exact hs
          · exact unifyParts_flat ts us s b s' hs h1 h2 h

end WG.Reason
