import Verif.Query.Spec
import Verif.TTree.Bounds
import Mathlib.Tactic.SplitIfs
import Mathlib.Tactic.Tauto
import Mathlib.Data.List.Induction
/-!
# Lemmas on conditions, choice of index and bounds
-/
namespace WG.Query
open WG.TTree
variable {κ : Type}

theorem checkCond_iff (db : DB κ) (r : Nat) (a : Arg κ) (h : a.col < db.len r) : checkCond db (db.fld r a.col) a = true ↔ Sat db r a := by
  unfold checkCond Sat
  cases a.cond <;> simp [h]

theorem check_iff (db : DB κ) (r : Nat) (args : List (Arg κ)) : checkArglist db r args = true ↔ ∀ a ∈ args, Sat db r a := by
  induction args with
  | nil => simp [checkArglist]
  | cons a t ih =>
    unfold checkArglist
    by_cases h : a.col < db.len r
    · rw [if_pos h]
      have := checkCond_iff db r a h
      by_cases h2 : checkCond db (db.fld r a.col) a
      · rw [if_pos h2, ih]
        simp [this.1 h2]
      · rw [if_neg h2]
        simp only [Bool.false_eq_true, List.mem_cons, forall_eq_or_imp, false_iff, not_and]
        intro h3
        exact absurd (this.2 h3) h2
    · rw [if_neg h]
      simp only [Bool.false_eq_true, List.mem_cons, forall_eq_or_imp, false_iff, not_and]
      intro h3
      exact absurd h3.1 h

theorem mem_matchArgs {db : DB κ} {m : List κ} {i : Nat} {a : Arg κ} :
    a ∈ matchArgs db m i ↔ ∃ j v, m[j]? = some v ∧ db.isVar v = false ∧ a = ⟨i + j, .equal, v⟩ := by
  induction m generalizing i with
  | nil => simp [matchArgs]
  | cons v t ih =>
    have key : (∃ j w, (v :: t)[j]? = some w ∧ db.isVar w = false ∧ a = ⟨i + j, .equal, w⟩) ↔
        (db.isVar v = false ∧ a = ⟨i, .equal, v⟩) ∨ (∃ j w, t[j]? = some w ∧ db.isVar w = false ∧ a = ⟨i + 1 + j, .equal, w⟩) := by
      constructor
      · rintro ⟨j, w, h1, h2, h3⟩
        cases j with
        | zero => simp at h1; subst h1; exact .inl ⟨h2, h3⟩
        | succ j => exact .inr ⟨j, w, by simpa using h1, h2, by rw [h3]; congr 1; omega⟩
      · rintro (⟨h1, h2⟩ | ⟨j, w, h1, h2, h3⟩)
        · exact ⟨0, v, by simp, h1, by simpa using h2⟩
        · exact ⟨j + 1, w, by simpa using h1, h2, by rw [h3]; congr 1; omega⟩
    rw [key]
    unfold matchArgs
    by_cases hv : db.isVar v
    · rw [if_pos hv, ih]
      simp [hv]
    · rw [if_neg hv, List.mem_cons, ih]
      simp [hv]

/-- Facts about an index chosen for a query. -/
structure Usable [DecidableEq κ] (db : DB κ) (args : List (Arg κ)) (c : Nat) (st : St κ) : Prop where
  arg : ∃ a ∈ args, a.col = c
  idx : ∃ ix ∈ db.idx c, ix.ttree = true ∧ ix.st = st ∧ ∀ m, ix.tmpl = some m → ∀ j v, m[j]? = some v → db.isVar v = false →
    ∃ a ∈ args, a.col = j ∧ a.cond = .equal ∧ db.cmp v a.value = .eq

theorem addScore_cols (c : Nat) (x : Int) (l : List (Nat × Int)) {d : Nat} {y : Int} (h : (d, y) ∈ addScore c x l) : d = c ∨ ∃ z, (d, z) ∈ l := by
  induction l with
  | nil => simp [addScore] at h; exact .inl h.1
  | cons p t ih =>
    obtain ⟨e, z⟩ := p
    unfold addScore at h
    split_ifs at h with hc
    · rcases List.mem_cons.1 h with h | h
      · simp only [Prod.mk.injEq] at h
        exact .inl (h.1.trans hc)
      · exact .inr ⟨y, by simp [h]⟩
    · rcases List.mem_cons.1 h with h | h
      · exact .inr ⟨y, by simp [h]⟩
      · rcases ih h with h | ⟨w, h⟩
        · exact .inl h
        · exact .inr ⟨w, by simp [h]⟩

theorem scores_cols [DecidableEq κ] (db : DB κ) (args : List (Arg κ)) {d : Nat} {y : Int} (h : (d, y) ∈ scores db args) : ∃ a ∈ args, a.col = d := by
  unfold scores at h
  have : ∀ (l : List (Arg κ)) (acc : List (Nat × Int)) (y : Int), (d, y) ∈ l.foldl (fun sc a => addScore a.col (argScore db a) sc) acc →
      (∃ a ∈ l, a.col = d) ∨ ∃ z, (d, z) ∈ acc := by
    intro l
    induction l with
    | nil => intro acc y h; exact .inr ⟨y, h⟩
    | cons a t ih =>
      intro acc y h
      rw [List.foldl_cons] at h
      rcases ih _ _ h with ⟨b, hb, e⟩ | ⟨z, hz⟩
      · exact .inl ⟨b, by simp [hb], e⟩
      · rcases addScore_cols _ _ _ hz with e | e
        · exact .inl ⟨a, by simp, e.symm⟩
        · exact .inr e
  rcases this _ _ _ h with h | ⟨z, hz⟩
  · exact h
  · simp at hz

theorem argsMatch_res {db : DB κ} {enc : κ} {j : Nat} {args : List (Arg κ)} {m : Bool} (h : argsMatch db enc j args m = some true) :
    m = true ∨ ∃ a ∈ args, a.col = j ∧ a.cond = .equal ∧ db.cmp enc a.value = .eq := by
  induction args generalizing m with
  | nil => simp [argsMatch] at h; exact .inl h
  | cons a t ih =>
    unfold argsMatch at h
    split_ifs at h with h1 h2
    · exact .inr ⟨a, by simp, h1, h2⟩
    · rcases ih h with h | ⟨b, hb, e⟩
      · exact .inl h
      · exact .inr ⟨b, by simp [hb], e⟩

theorem tmplMatch_res [DecidableEq κ] {db : DB κ} {args : List (Arg κ)} {m : List κ} {i : Nat} {sc sc' : Int} (h : tmplMatch db args m i sc = (sc', true)) :
    ∀ j v, m[j]? = some v → db.isVar v = false → ∃ a ∈ args, a.col = i + j ∧ a.cond = .equal ∧ db.cmp v a.value = .eq := by
  induction m generalizing i sc with
  | nil => simp
  | cons v t ih =>
    unfold tmplMatch at h
    intro j w hj hw
    by_cases hv : db.isVar v
    · rw [if_pos hv] at h
      cases j with
      | zero => simp at hj; subst hj; rw [hv] at hw; cases hw
      | succ j =>
        obtain ⟨a, h1, h2, h3⟩ := ih h j w (by simpa using hj) hw
        exact ⟨a, h1, by omega, h3⟩
    · rw [if_neg hv] at h
      split at h
      · rename_i hm
        cases j with
        | zero =>
          simp at hj; subst hj
          rcases argsMatch_res hm with h | h
          · cases h
          · simpa using h
        | succ j =>
          obtain ⟨a, h1, h2, h3⟩ := ih h j w (by simpa using hj) hw
          exact ⟨a, h1, by omega, h3⟩
      · simp at h

theorem findIndex_res [DecidableEq κ] {db : DB κ} {args : List (Arg κ)} {l : List (Idx κ)} {sc : Int} {st : St κ} (h : (findIndex db args l sc).1 = some st) :
    ∃ ix ∈ l, ix.ttree = true ∧ ix.st = st ∧ ∀ m, ix.tmpl = some m → ∀ j v, m[j]? = some v → db.isVar v = false →
      ∃ a ∈ args, a.col = j ∧ a.cond = .equal ∧ db.cmp v a.value = .eq := by
  induction l generalizing sc with
  | nil => simp [findIndex] at h
  | cons ix t ih =>
    have hrec : ∀ sc, (findIndex db args t sc).1 = some st → ∃ ix' ∈ ix :: t, ix'.ttree = true ∧ ix'.st = st ∧ ∀ m, ix'.tmpl = some m → ∀ j v, m[j]? = some v → db.isVar v = false →
      ∃ a ∈ args, a.col = j ∧ a.cond = .equal ∧ db.cmp v a.value = .eq := by
      intro sc h
      obtain ⟨x, hx, e⟩ := ih h
      exact ⟨x, by simp [hx], e⟩
    unfold findIndex at h
    split_ifs at h with h1
    · split at h
      · rename_i hn
        exact ⟨ix, by simp, h1, by simpa using h, by simp [hn]⟩
      · rename_i m hm
        split at h
        · rename_i sc' ht
          refine ⟨ix, by simp, h1, by simpa using h, ?_⟩
          intro m' hm'
          rw [hm] at hm'
          cases hm'
          simpa using tmplMatch_res ht
        · exact hrec _ h
    · exact hrec _ h

theorem bestLoop_res [DecidableEq κ] {db : DB κ} {args : List (Arg κ)} {l : List (Nat × Int)} {acc : Int × Option (Nat × St κ)} {c : Nat} {st : St κ}
    (hl : ∀ c y, (c, y) ∈ l → ∃ a ∈ args, a.col = c) (ha : ∀ c st, acc.2 = some (c, st) → Usable db args c st)
    (h : bestLoop db args l acc = some (c, st)) : Usable db args c st := by
  induction l generalizing acc with
  | nil => exact ha c st h
  | cons p t ih =>
    obtain ⟨d, y⟩ := p
    unfold bestLoop at h
    refine ih (fun c y hc => hl c y (by simp [hc])) ?_ h
    intro c' st' e
    split_ifs at e with h1 h2 h2
    all_goals first
      | exact ha c' st' e
      | skip
    all_goals
      simp only [Option.map_eq_some_iff, Prod.mk.injEq] at e
      obtain ⟨st2, e, rfl, rfl⟩ := e
      obtain ⟨ix, hm, e2⟩ := findIndex_res e
      first | exact ⟨hl _ y (by simp), ix, hm, e2⟩ | simp at hm

theorem mostRestricting_res [DecidableEq κ] {db : DB κ} {args : List (Arg κ)} {c : Nat} {st : St κ} (h : mostRestricting db args = some (c, st)) : Usable db args c st :=
  bestLoop_res (fun c y hc => scores_cols db args hc) (by simp) h

/-! ## Bounds -/

section
variable [DecidableEq κ] {db : DB κ} {P : κ → Prop}

/-- What the bounds mean for a row whose value is `x`. -/
structure BndsOk (db : DB κ) (P : κ → Prop) (c : Nat) (l : List (Arg κ)) (b : Bnds κ) : Prop where
  sp : b.sb = db.ill ∨ P b.sb
  ep : b.eb = db.ill ∨ P b.eb
  lo : ∀ x, P x → ((b.sb ≠ db.ill → if b.si then db.cmp x b.sb ≠ .lt else db.cmp x b.sb = .gt) ↔
    ∀ a ∈ l, a.col = c → (a.cond = .equal ∨ a.cond = .gtEqual → db.cmp x a.value ≠ .lt) ∧ (a.cond = .greater → db.cmp x a.value = .gt))
  hi : ∀ x, P x → ((b.eb ≠ db.ill → if b.ei then db.cmp x b.eb ≠ .gt else db.cmp x b.eb = .lt) ↔
    ∀ a ∈ l, a.col = c → (a.cond = .equal ∨ a.cond = .ltEqual → db.cmp x a.value ≠ .gt) ∧ (a.cond = .lessThan → db.cmp x a.value = .lt))
  sx : b.sb ≠ db.ill → b.si = false → ∃ a ∈ l, a.col = c ∧ a.cond = .greater ∧ a.value = b.sb
  ex : b.eb ≠ db.ill → b.ei = false → ∃ a ∈ l, a.col = c ∧ a.cond = .lessThan ∧ a.value = b.eb
  all : b.all = true ↔ ∃ a ∈ l, a.col = c ∧ a.cond = .notEqual

def LowOk (db : DB κ) (sb : κ) (si : Bool) (x : κ) : Prop := sb ≠ db.ill → if si then db.cmp x sb ≠ .lt else db.cmp x sb = .gt
def HighOk (db : DB κ) (eb : κ) (ei : Bool) (x : κ) : Prop := eb ≠ db.ill → if ei then db.cmp x eb ≠ .gt else db.cmp x eb = .lt

/-- The order on values that satisfy `P`, in terms of `le` only. -/
theorem facts (O : Ord (db.env 0) P) {a b c : κ} (ha : P a) (hb : P b) (hc : P c) :
    ∃ le : κ → κ → Prop, (∀ x y, P x → P y → (db.cmp x y = .lt ↔ ¬ le y x) ∧ (db.cmp x y = .gt ↔ ¬ le x y)) ∧
      (le a b ∨ le b a) ∧ (le a c ∨ le c a) ∧ (le b c ∨ le c b) ∧ (le a b → le b c → le a c) ∧ (le a c → le c b → le a b) ∧ (le b a → le a c → le b c) ∧
      (le b c → le c a → le b a) ∧ (le c a → le a b → le c b) ∧ (le c b → le b a → le c a) := by
  refine ⟨(db.env 0).le, fun x y hx hy => ⟨O.lt_iff hx hy, ?_⟩, O.total ha hb, O.total ha hc, O.total hb hc, O.trans ha hb hc, O.trans ha hc hb, O.trans hb ha hc, O.trans hb hc ha, O.trans hc ha hb, O.trans hc hb ha⟩
  unfold Env.le
  simp [DB.env]

theorem low_incl (O : Ord (db.env 0) P) {sb v x : κ} {si : Bool} (hs : sb = db.ill ∨ P sb) (hv : P v) (hvi : v ≠ db.ill) (hx : P x) :
    (if sb = db.ill ∨ db.cmp sb v = .lt then LowOk db v true x else LowOk db sb si x) ↔ LowOk db sb si x ∧ db.cmp x v ≠ .lt := by
  unfold LowOk
  by_cases hi : sb = db.ill
  · simp [hi, hvi]
  · have hp := hs.resolve_left hi
    obtain ⟨le, h, t⟩ := facts O hp hv hx
    simp only [hi, false_or, ne_eq, hvi, not_false_eq_true, forall_const, if_true, (h _ _ hx hp).1, (h _ _ hx hp).2, (h _ _ hx hv).1, (h _ _ hp hv).1]
    cases si <;> split_ifs <;> simp_all <;> tauto

theorem low_excl (O : Ord (db.env 0) P) {sb v x : κ} {si : Bool} (hs : sb = db.ill ∨ P sb) (hv : P v) (hvi : v ≠ db.ill) (hx : P x) :
    (if sb = db.ill ∨ db.cmp sb v ≠ .gt then LowOk db v false x else LowOk db sb si x) ↔ LowOk db sb si x ∧ db.cmp x v = .gt := by
  unfold LowOk
  by_cases hi : sb = db.ill
  · simp [hi, hvi]
  · have hp := hs.resolve_left hi
    obtain ⟨le, h, t⟩ := facts O hp hv hx
    simp only [hi, false_or, ne_eq, hvi, not_false_eq_true, forall_const, if_true, (h _ _ hx hp).1, (h _ _ hx hp).2, (h _ _ hx hv).1, (h _ _ hx hv).2, (h _ _ hp hv).2]
    cases si <;> split_ifs <;> simp_all <;> tauto

theorem high_incl (O : Ord (db.env 0) P) {sb v x : κ} {si : Bool} (hs : sb = db.ill ∨ P sb) (hv : P v) (hvi : v ≠ db.ill) (hx : P x) :
    (if sb = db.ill ∨ db.cmp sb v = .gt then HighOk db v true x else HighOk db sb si x) ↔ HighOk db sb si x ∧ db.cmp x v ≠ .gt := by
  unfold HighOk
  by_cases hi : sb = db.ill
  · simp [hi, hvi]
  · have hp := hs.resolve_left hi
    obtain ⟨le, h, t⟩ := facts O hp hv hx
    simp only [hi, false_or, ne_eq, hvi, not_false_eq_true, forall_const, if_true, (h _ _ hx hp).1, (h _ _ hx hp).2, (h _ _ hx hv).2, (h _ _ hp hv).2]
    cases si <;> split_ifs <;> simp_all <;> tauto

theorem high_excl (O : Ord (db.env 0) P) {sb v x : κ} {si : Bool} (hs : sb = db.ill ∨ P sb) (hv : P v) (hvi : v ≠ db.ill) (hx : P x) :
    (if sb = db.ill ∨ db.cmp sb v ≠ .lt then HighOk db v false x else HighOk db sb si x) ↔ HighOk db sb si x ∧ db.cmp x v = .lt := by
  unfold HighOk
  by_cases hi : sb = db.ill
  · simp [hi, hvi]
  · have hp := hs.resolve_left hi
    obtain ⟨le, h, t⟩ := facts O hp hv hx
    simp only [hi, false_or, ne_eq, hvi, not_false_eq_true, forall_const, if_true, (h _ _ hx hp).1, (h _ _ hx hp).2, (h _ _ hx hv).1, (h _ _ hp hv).1]
    cases si <;> split_ifs <;> simp_all <;> tauto

theorem boundStep_lo [DecidableEq κ] (O : Ord (db.env 0) P) {c : Nat} {b : Bnds κ} {a : Arg κ} (hs : b.sb = db.ill ∨ P b.sb) (hv : P a.value) (hvi : a.value ≠ db.ill) {x : κ} (hx : P x) :
    LowOk db (boundStep db c b a).sb (boundStep db c b a).si x ↔ LowOk db b.sb b.si x ∧
      (a.col = c → (a.cond = .equal ∨ a.cond = .gtEqual → db.cmp x a.value ≠ .lt) ∧ (a.cond = .greater → db.cmp x a.value = .gt)) := by
  unfold boundStep
  by_cases hc : a.col = c
  · rw [if_neg (by simpa using hc)]
    have h1 := low_incl O (si := b.si) hs hv hvi hx
    have h2 := low_excl O (si := b.si) hs hv hvi hx
    cases hcd : a.cond <;> simp only [hc, forall_const, reduceCtorEq, or_false, false_or, or_self, false_imp_iff, and_true, true_and, true_imp_iff]
    · rw [← h1]; split_ifs <;> rfl
    · split_ifs <;> rfl
    · rw [← h2]; split_ifs <;> rfl
    · split_ifs <;> rfl
    · rw [← h1]; split_ifs <;> rfl
  · rw [if_pos hc]
    simp [hc]

theorem boundStep_hi [DecidableEq κ] (O : Ord (db.env 0) P) {c : Nat} {b : Bnds κ} {a : Arg κ} (hs : b.eb = db.ill ∨ P b.eb) (hv : P a.value) (hvi : a.value ≠ db.ill) {x : κ} (hx : P x) :
    HighOk db (boundStep db c b a).eb (boundStep db c b a).ei x ↔ HighOk db b.eb b.ei x ∧
      (a.col = c → (a.cond = .equal ∨ a.cond = .ltEqual → db.cmp x a.value ≠ .gt) ∧ (a.cond = .lessThan → db.cmp x a.value = .lt)) := by
  unfold boundStep
  by_cases hc : a.col = c
  · rw [if_neg (by simpa using hc)]
    have h1 := high_incl O (si := b.ei) hs hv hvi hx
    have h2 := high_excl O (si := b.ei) hs hv hvi hx
    cases hcd : a.cond <;> simp only [hc, forall_const, reduceCtorEq, or_false, false_or, or_self, false_imp_iff, and_true, true_and, true_imp_iff]
    · rw [← h1]; split_ifs <;> first | rfl | simp_all
    · rw [← h2]; split_ifs <;> rfl
    · split_ifs <;> rfl
    · rw [← h1]; split_ifs <;> rfl
    · split_ifs <;> rfl
  · rw [if_pos hc]
    simp [hc]

theorem bounds_ok (O : Ord (db.env 0) P) (c : Nat) (args : List (Arg κ)) (hv : ∀ a ∈ args, P a.value) : BndsOk db P c args (bounds db c args) := by
  have hill : ∀ {v}, P v → v ≠ db.ill := by
    rintro v hp rfl
    have := O.refl hp
    exact O.ill hp (by have := O.swap hp hp; revert this; simp only [DB.env]; cases db.cmp db.ill db.ill <;> simp)
  unfold bounds
  induction args using List.reverseRecOn with
  | nil =>
    refine ⟨.inl rfl, .inl rfl, ?_, ?_, ?_, ?_, ?_⟩ <;> simp
  | append_singleton l a ih =>
    have ih := ih (fun b hb => hv b (by simp [hb]))
    rw [List.foldl_append, List.foldl_cons, List.foldl_nil]
    generalize List.foldl (boundStep db c) ⟨db.ill, false, db.ill, false, false⟩ l = b at ih ⊢
    have hva := hv a (by simp)
    have hvi := hill hva
    refine ⟨?_, ?_, fun x hx => ?_, fun x hx => ?_, ?_, ?_, ?_⟩
    · have := ih.sp
      unfold boundStep
      by_cases hc : a.col = c
      case neg => rw [if_pos hc]; exact this
      · rw [if_neg (by simpa using hc)]
        cases a.cond <;> (try simp only []) <;> (try split_ifs) <;> first | exact this | exact .inr hva
    · have := ih.ep
      unfold boundStep
      by_cases hc : a.col = c
      case neg => rw [if_pos hc]; exact this
      · rw [if_neg (by simpa using hc)]
        cases a.cond <;> (try simp only []) <;> (try split_ifs) <;> first | exact this | exact .inr hva
    · have := boundStep_lo O (c := c) ih.sp hva hvi hx
      unfold LowOk at this
      rw [this, ih.lo x hx]
      rw [List.forall_mem_append, List.forall_mem_singleton]
    · have := boundStep_hi O (c := c) ih.ep hva hvi hx
      unfold HighOk at this
      rw [this, ih.hi x hx]
      rw [List.forall_mem_append, List.forall_mem_singleton]
    · have hold : b.sb ≠ db.ill → b.si = false → ∃ a' ∈ l ++ [a], a'.col = c ∧ a'.cond = .greater ∧ a'.value = b.sb := by
        intro h1 h2
        obtain ⟨a', h, h'⟩ := ih.sx h1 h2
        exact ⟨a', by simp [h], h'⟩
      unfold boundStep
      by_cases hc : a.col = c
      case neg => rw [if_pos hc]; exact hold
      · rw [if_neg (by simpa using hc)]
        cases hcd : a.cond <;> (try simp only []) <;> (try split_ifs) <;> first | exact hold | exact fun _ _ => ⟨a, by simp, hc, hcd, rfl⟩ | (intro _ h; cases h)
    · have hold : b.eb ≠ db.ill → b.ei = false → ∃ a' ∈ l ++ [a], a'.col = c ∧ a'.cond = .lessThan ∧ a'.value = b.eb := by
        intro h1 h2
        obtain ⟨a', h, h'⟩ := ih.ex h1 h2
        exact ⟨a', by simp [h], h'⟩
      unfold boundStep
      by_cases hc : a.col = c
      case neg => rw [if_pos hc]; exact hold
      · rw [if_neg (by simpa using hc)]
        cases hcd : a.cond <;> (try simp only []) <;> (try split_ifs) <;> first | exact hold | exact fun _ _ => ⟨a, by simp, hc, hcd, rfl⟩ | (intro _ h; cases h)
    · have hold := ih.all
      have key : (∃ a' ∈ l ++ [a], a'.col = c ∧ a'.cond = .notEqual) ↔ (∃ a' ∈ l, a'.col = c ∧ a'.cond = .notEqual) ∨ (a.col = c ∧ a.cond = .notEqual) := by
        simp only [List.mem_append, List.mem_singleton, or_and_right, exists_or, exists_eq_left]
      rw [key, ← hold]
      unfold boundStep
      by_cases hc : a.col = c
      case neg => simp [hc]
      · rw [if_neg (by simpa using hc)]
        cases hcd : a.cond <;> simp only [hc, true_and, reduceCtorEq, or_false, or_true, iff_true] <;> (try split_ifs) <;> rfl

end

end WG.Query
