import Verif.Reason.Complete
import Verif.Reason.ResProps

/-!
# C70: Horn clauses, when the search ends without a proof
-/
namespace WG.Reason

/-! ## Trees, with computed terms -/

/-- The terms that are computed, and their values. -/
inductive Computes (cfg : Cfg) (M : Mem) : List Tree → Val → Prop
  | equal (d : Tree) (ds : List Tree) : Computes cfg M (.con (aEqual.val M) :: d :: d :: ds) (aTrue.val M)
  | differ (c d : Const) (ds : List Tree) : c.opaque cfg = false → d.opaque cfg = false → c.val M ≠ d.val M →
      Computes cfg M (.con (aEqual.val M) :: .con (c.val M) :: .con (d.val M) :: ds) (aFalse.val M)
  | sum (c d e : Const) (ds : List Tree) : cfg.plus c d = some e →
      Computes cfg M (.con (aPlus.val M) :: .con (c.val M) :: .con (d.val M) :: ds) (e.val M)

theorem Computes.head {cfg : Cfg} {M : Mem} {ts : List Tree} {v : Val} (h : Computes cfg M ts v) :
    ∃ rest, ts = .con (aEqual.val M) :: rest ∨ ts = .con (aPlus.val M) :: rest := by
  cases h with
  | equal d ds => exact ⟨_, Or.inl rfl⟩
  | differ c d ds => exact ⟨_, Or.inl rfl⟩
  | sum c d e ds => exact ⟨_, Or.inr rfl⟩

theorem Computes.unique {cfg : Cfg} {M : Mem} (hp : PlusOK cfg M) {ts ts' : List Tree} {v v' : Val} (h : Computes cfg M ts v)
    (h' : Computes cfg M ts' v') (e : ts = ts') : v = v' := by
  cases h with
  | equal d ds =>
    cases h' with
    | equal d' ds' => rfl
    | differ c d ds h1 h2 h3 =>
      simp only [List.cons.injEq] at e
      obtain ⟨_, h4, h5, _⟩ := e
      rw [h4] at h5; injection h5 with h5
      exact absurd h5 h3
    | sum c d x ds h1 =>
      simp only [List.cons.injEq, aEqual, aPlus, Const.val] at e
      injection e.1 with e; injection e with e; omega
  | differ c d ds h1 h2 h3 =>
    cases h' with
    | equal d' ds' =>
      simp only [List.cons.injEq] at e
      obtain ⟨_, h4, h5, _⟩ := e
      rw [← h4] at h5; injection h5 with h5
      exact absurd h5.symm h3
    | differ => rfl
    | sum c d x ds h1 =>
      simp only [List.cons.injEq, aEqual, aPlus, Const.val] at e
      injection e.1 with e; injection e with e; omega
  | sum c d x ds h1 =>
    cases h' with
    | equal =>
      simp only [List.cons.injEq, aEqual, aPlus, Const.val] at e
      injection e.1 with e; injection e with e; omega
    | differ =>
      simp only [List.cons.injEq, aEqual, aPlus, Const.val] at e
      injection e.1 with e; injection e with e; omega
    | sum c' d' x' ds' h2 =>
      simp only [List.cons.injEq] at e
      obtain ⟨_, h4, h5, _⟩ := e
      injection h4 with h4; injection h5 with h5
      exact hp _ _ _ _ _ _ h1 h2 h4 h5

open Classical in
/-- Trees, where computed terms are their values. -/
noncomputable def calcAlg (cfg : Cfg) (M : Mem) : Alg Tree :=
  ⟨.con, fun ts => if h : ∃ v, Computes cfg M ts v then .con h.choose else .app ts⟩

theorem calc_app {cfg : Cfg} {M : Mem} (hp : PlusOK cfg M) {ts : List Tree} {v : Val} (h : Computes cfg M ts v) :
    (calcAlg cfg M).app ts = .con v := by
  have hx : ∃ v, Computes cfg M ts v := ⟨v, h⟩
  simp only [calcAlg]
  rw [dif_pos hx]
  exact congrArg _ (hx.choose_spec.unique hp h rfl)

theorem calc_std {cfg : Cfg} {M : Mem} (hp : PlusOK cfg M) {holds : Tree → Prop} (yes : holds (.con (aTrue.val M)))
    (no : ¬ holds (.con (aFalse.val M))) : (⟨calcAlg cfg M, holds⟩ : Interp Tree).Std cfg M :=
  ⟨yes, no, fun d ds => calc_app hp (.equal d ds), fun c d ds h1 h2 h3 => calc_app hp (.differ c d ds h1 h2 h3),
    fun c d e ds h => calc_app hp (.sum c d e ds h)⟩

theorem val_imm {M : Mem} {c : Const} {w : Nat} (h : c.val M = (Const.imm w).val M) : c = .imm w := by
  cases c <;> simp_all [Const.val]

theorem flat_ev {cfg : Cfg} {M : Mem} {σ : Nat → Tree} : ∀ (ts : List Term), (∀ t : Term, t ∈ ts → t.isRec = false) →
    evL M (calcAlg cfg M) σ ts = evL M treeAlg σ ts
  | [], _ => rfl
  | t :: ts, h => by
    rw [evL, evL, flat_ev ts fun t ht => h t (by simp [ht])]
    have := h t (by simp)
    cases t with
    | app a us => simp [Term.isRec] at this
    | var n => rfl
    | con c => rfl
    | nul => rfl

theorem calc_herb {cfg : Cfg} {M : Mem} : Herb M (calcAlg cfg M) := by
  refine ⟨fun v => rfl, fun x px σ => ?_⟩
  cases px with
  | @app a c ts h1 h2 h3 =>
    rw [ev, ev, evL, evL, flat_ev ts h3]
    have : ¬ ∃ v, Computes cfg M (ev M (calcAlg cfg M) σ (.con c) :: evL M treeAlg σ ts) v := by
      rintro ⟨v, h⟩
      obtain ⟨rest, h | h⟩ := h.head
      · injection h with h _
        injection h with h
        exact h2 (val_imm h)
      · injection h with h _
        injection h with h
        exact h1 (val_imm h)
    simp only [calcAlg] at this ⊢
    rw [dif_neg this]
    rfl

/-! ## The model -/

/-- What the facts among the clauses say. -/
def Facts (M : Mem) (A : Alg Tree) (ds : List Clause) (T : Tree) : Prop :=
  T = .con (aTrue.val M) ∨ ∃ P : Clause, P ∈ ds ∧ ∃ a, P.lits = [⟨false, a⟩] ∧ ∃ τ, T = ev M A τ a

theorem split_neg : ∀ (ls : List Lit), (∀ l : Lit, l ∈ ls → l.neg = false) ∨
    ∃ pre x post, ls = pre ++ ⟨true, x⟩ :: post ∧ ∀ l : Lit, l ∈ pre → l.neg = false
  | [] => Or.inl fun l h => by cases h
  | ⟨true, x⟩ :: ls => Or.inr ⟨[], x, ls, rfl, fun l h => by cases h⟩
  | ⟨false, x⟩ :: ls => by
    rcases split_neg ls with h | ⟨pre, y, post, h1, h2⟩
    · refine Or.inl fun l hl => ?_
      rcases List.mem_cons.1 hl with e | hl
      · rw [e]
      · exact h l hl
    · refine Or.inr ⟨⟨false, x⟩ :: pre, y, post, by rw [h1]; rfl, fun l hl => ?_⟩
      rcases List.mem_cons.1 hl with e | hl
      · rw [e]
      · exact h2 l hl

theorem horn_unit {ls : List Lit} (hn : ls ≠ []) (hh : HornL ls) (hp : ∀ l : Lit, l ∈ ls → l.neg = false) : ∃ a, ls = [⟨false, a⟩] := by
  cases ls with
  | nil => exact absurd rfl hn
  | cons l ls =>
    cases ls with
    | nil =>
      obtain ⟨n, a⟩ := l
      have := hp ⟨n, a⟩ (by simp)
      simp only at this
      subst this
      exact ⟨a, rfl⟩
    | cons k ls =>
      exfalso
      have h1 := hp l (by simp)
      have h2 := hp k (by simp)
      simp only [HornL, cnt, List.countP_cons, h1, h2, Bool.not_false, if_true] at hh
      omega

/-- A sign and a value: true. -/
def Right (holds : Tree → Prop) (p : Bool × Tree) : Prop := if p.1 then ¬ holds p.2 else holds p.2

theorem plain_app {M : Mem} {A : Alg Tree} (hA : Herb M A) {x : Term} (px : Plain x) (σ : Nat → Tree) : ∃ ts, ev M A σ x = .app ts := by
  rw [hA.atom x px]
  cases px with
  | app _ _ _ => exact ⟨_, rfl⟩

theorem sat_true {cfg : Cfg} {M : Mem} {cs : List Clause} {A : Alg Tree} (hA : Herb M A) {s : Sys} (hpl : PlainSys s) (h : Sat cfg M A cs s)
    (he : s.passive = []) : ∀ (n : Nat) (c : Clause), c ∈ s.active → c.lits.length ≤ n → ∀ σ, ∃ l : Lit, l ∈ c.lits ∧
      Right (Facts M A s.active) (l.neg, ev M A σ l.atom)
  | n, c, hc, hn, σ => by
    have pc := hpl.active c hc
    rcases split_neg c.lits with hp | ⟨pre, x, post, e, hpre⟩
    · obtain ⟨a, e⟩ := horn_unit pc.1 (h.act c hc).1 hp
      exact ⟨⟨false, a⟩, by rw [e]; simp, Or.inr ⟨c, hc, a, e, σ, rfl⟩⟩
    · have hx : (⟨true, x⟩ : Lit) ∈ c.lits := by rw [e]; simp
      by_cases ht : Facts M A s.active (ev M A σ x)
      · rcases ht with ht | ⟨P, hP, a, ea, τ, ht⟩
        · obtain ⟨ts, h1⟩ := plain_app hA (pc.2 _ hx) σ
          simp only at h1
          rw [h1] at ht; cases ht
        · have sub : ∀ p, p ∈ meaning M A σ (pre ++ post) → ∃ l : Lit, l ∈ c.lits ∧ (l.neg, ev M A σ l.atom) = p := by
            intro p hp
            obtain ⟨l, h1, h2⟩ := List.mem_map.1 hp
            refine ⟨l, ?_, h2⟩
            rw [e]
            rcases List.mem_append.1 h1 with h1 | h1
            · exact List.mem_append_left _ h1
            · exact List.mem_append_right _ (List.mem_cons_of_mem _ h1)
          rcases h.pairs P hP a ea c hc pre x post e hpre σ τ ht.symm with ⟨T, h1, h2⟩ | ⟨d, h1, h2, ρ, h3⟩
          · by_cases hT : Facts M A s.active T
            · obtain ⟨l, h4, h5⟩ := sub _ h2
              exact ⟨l, h4, by rw [h5]; exact hT⟩
            · obtain ⟨l, h4, h5⟩ := sub _ h1
              exact ⟨l, h4, by rw [h5]; exact hT⟩
          · rw [he, List.nil_append] at h1
            have len : c.lits.length = pre.length + post.length + 1 := by rw [e]; simp; omega
            cases n with
            | zero => omega
            | succ n =>
              obtain ⟨l, h4, h5⟩ := sat_true hA hpl h he n d h1 (by omega) ρ
              obtain ⟨k, h6, h7⟩ := sub _ (h3 l h4)
              exact ⟨k, h6, by rw [h7]; exact h5⟩
      · exact ⟨⟨true, x⟩, hx, ht⟩

theorem sat_init {cfg : Cfg} {M : Mem} {A : Alg Tree} {next : Nat} {cs : List Clause} (hl : ∀ c : Clause, c ∈ cs → c.Low)
    (hh : ∀ c : Clause, c ∈ cs → c.Horn) : Sat cfg M A cs (Sys.init M next cs) := by
  refine ⟨fun c hc => ⟨hl c hc, ?_⟩, fun c hc => (by cases hc), fun c hc => (by cases hc), fun e he => (by cases he), fun e he => (by cases he),
    fun c hc => (by cases hc), fun c hc ρ => ⟨c, List.mem_append_left _ hc, Nat.le_refl _, ρ, fun l hl => meaning_mem hl⟩⟩
  have := hh c hc
  rw [Clause.Horn, ← List.countP_eq_length_filter] at this
  exact this

/-- **C70**, partial: Horn clauses. If the search by binary resolution, with or without preference of negative literals, ends without a
proof (and not because memory has run out), then there is a model: an interpretation, of the sort that the reasoner computes with, in which
all clauses of the database are true. So on Horn clauses without function terms, an end without a proof is an answer. Missing: other clauses
(there the claim is false, see ResDemo), hyperresolution (C71), preference of positive literals, function terms. -/
theorem C70_horn_partial (cfg : Cfg) (hh : cfg.hyper = false) (hp : cfg.pospref = false) {M : Mem} (hhash : HashOK cfg M)
    (hplus : PlusOK cfg M) {next : Nat} (hM : Blank M next) {cs : List Clause} (hc : ∀ c : Clause, c ∈ cs → c.Fine M)
    (hpl : ∀ c : Clause, c ∈ cs → c.Plain) (hl : ∀ c : Clause, c ∈ cs → c.Low) (ho : ∀ c : Clause, c ∈ cs → c.Horn) {f : Nat}
    (h : run cfg f M next cs = .ok .finished) : ∃ I : Interp Tree, I.Std cfg M ∧ ∀ c : Clause, c ∈ cs → c.True M I := by
  rw [run] at h
  obtain ⟨⟨v, s⟩, hg, h⟩ := bind_eq_ok h
  simp only at h
  split at h
  · cases h
  · injection h with h; subst h
    have ne : (.con (aFalse.val M) : Tree) ≠ .con (aTrue.val M) := by simp [aFalse, aTrue, Const.val]
    obtain ⟨p, S, e⟩ := genloop_keep (I0 := ⟨calcAlg cfg M, fun T => T = .con (aTrue.val M)⟩) hh hp hhash (calc_std hplus rfl ne) calc_herb f _ s
      ⟨rfl, hpl, fun c h => (by cases h), fun e h => (by cases h), fun e h => (by cases h)⟩ (init_ok (cfg := cfg) hM hc) rfl (sat_init hl ho) hg
    refine ⟨⟨calcAlg cfg M, Facts M (calcAlg cfg M) s.active⟩, calc_std hplus (Or.inl rfl) ?_, fun c hcs ρ => ?_⟩
    · rintro (h | ⟨P, hP, a, ea, τ, ht⟩)
      · exact ne h
      · obtain ⟨ts, h1⟩ := plain_app (A := calcAlg cfg M) calc_herb ((p.active P hP).2 ⟨false, a⟩ (by rw [ea]; simp)) τ
        simp only at h1
        rw [h1] at ht; cases ht
    · obtain ⟨d, h1, _, ρ', h3⟩ := S.inputs c hcs ρ
      rw [e, List.nil_append] at h1
      obtain ⟨l, h4, h5⟩ := sat_true calc_herb p S e _ d h1 (Nat.le_refl _) ρ'
      obtain ⟨k, h6, h7⟩ := List.mem_map.1 (h3 l h4)
      refine ⟨k, h6, ?_⟩
      rw [← h7] at h5
      exact h5

/-- **C70**, partial: and so if Horn clauses have no model, the search does not end without a proof. -/
theorem C70_unsat_partial (cfg : Cfg) (hh : cfg.hyper = false) (hp : cfg.pospref = false) {M : Mem} (hhash : HashOK cfg M)
    (hplus : PlusOK cfg M) {next : Nat} (hM : Blank M next) {cs : List Clause} (hc : ∀ c : Clause, c ∈ cs → c.Fine M)
    (hpl : ∀ c : Clause, c ∈ cs → c.Plain) (hl : ∀ c : Clause, c ∈ cs → c.Low) (ho : ∀ c : Clause, c ∈ cs → c.Horn)
    (hu : Unsat cfg M cs) (f : Nat) : run cfg f M next cs ≠ .ok .finished := fun h => by
  obtain ⟨I, h1, h2⟩ := C70_horn_partial cfg hh hp hhash hplus hM hc hpl hl ho h
  exact hu Tree I h1 h2

end WG.Reason
