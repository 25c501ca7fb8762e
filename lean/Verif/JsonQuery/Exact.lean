import Verif.JsonQuery.Lemmas
/-! # C53: document queries -/
namespace WG.JsonQuery
open WG.Recs WG.ResultSet

variable {C : Prop} {ι : Type} {args : List Arg} {src : Src}

/-- `x` is the offset of a document that contains the key and value. -/
def Want (h : Heap) (a : Arg) (x : Nat) : Prop := ∃ d, IsDocument h d ∧ d.toNat = x ∧ Contains h d a.1 a.2

open Classical in
/-- What a record contributes to the result of a clause. -/
noncomputable def gives (h : Heap) (a : Arg) (r : Word) : List Nat :=
  if IsPair h r a.1 a.2 then match findDocument h r with
    | some (some d) => [d.toNat]
    | _ => []
  else []

theorem gives_length (h : Heap) (a : Arg) (r : Word) : (gives h a r).length ≤ 1 := by
  unfold gives
  split
  · split <;> simp
  · simp

theorem flatMap_length {α : Type} {g : α → List Nat} (hg : ∀ x, (g x).length ≤ 1) (l : List α) : (l.flatMap g).length ≤ l.length := by
  induction l with
  | nil => simp
  | cons x l ih =>
    rw [List.flatMap_cons, List.length_append, List.length_cons]
    have := hg x
    omega

section
variable (hI : Inv C h) (hD : DocsOk h args)
include hI hD

theorem owner {a : Arg} (ha : a ∈ args) {r : Word} (h1 : Data h r) (h2 : IsPair h r a.1 a.2) :
    ∃ d, IsDocument h d ∧ d.toNat ≠ 0 ∧ Below (view h) d r ∧ findDocument h r = some (some d) := by
  obtain ⟨d, g1, g2⟩ := hD.owned a ha r h1 h2
  refine ⟨d, g1, ?_, g2, find_doc hI hD g1 g2⟩
  obtain ⟨rc, e, _⟩ := g1
  exact rec_ne_zero (hI) e

/-- The records contribute the documents they are in. -/
theorem gives_want {a : Arg} (ha : a ∈ args) {l : List Word} (hl : ∀ r ∈ l, Data h r) (hall : ∀ r, Data h r → IsPair h r a.1 a.2 → r ∈ l) (x : Nat) :
    x ∈ l.flatMap (gives h a) ↔ Want h a x := by
  rw [List.mem_flatMap]
  constructor
  · rintro ⟨r, h1, h2⟩
    unfold gives at h2
    by_cases hp : IsPair h r a.1 a.2
    · rw [if_pos hp] at h2
      obtain ⟨d, g1, _, g2, g3⟩ := owner hI hD ha (hl r h1) hp
      rw [g3] at h2
      exact ⟨d, g1, (List.mem_singleton.1 h2).symm, r, g2, hp⟩
    · rw [if_neg hp] at h2
      cases h2
  · rintro ⟨d, hd, rfl, r, hb, hp⟩
    refine ⟨r, hall r (hD.data d r hd hb) hp, ?_⟩
    unfold gives
    rw [if_pos hp, find_doc hI hD hd hb]
    exact List.mem_singleton.2 rfl

/-- The documents found for one clause. -/
theorem collect_ok (hS : SrcOk h src args) {key : Option (Word → List Word)} (hk : key = none ∨ key = src.key) {mem : ResultSet.Mem} {a : Arg} (ha : a ∈ args)
    {cur : Option RSet} {rc : List Nat} (hc : ∀ c, cur = some c → Rep c rc ∧ ∀ x ∈ rc, ∃ d, IsDocument h d ∧ d.toNat = x) {next : RSet} (hn : Rep next []) :
    (collect h src key mem a cur next = some none ∧ ∃ n, mem.page n = false) ∨
    ∃ next' cur' rows, collect h src key mem a cur next = some (some (next', cur')) ∧ Rep next' rows ∧
      ((cur' = cur ∧ (∀ x, x ∈ rows ↔ Want h a x) ∧
          (rows.length ≤ src.recs.length ∨ (∃ f, src.hash = some f ∧ rows.length ≤ (f a.1 a.2).length) ∨ ∃ f, src.key = some f ∧ rows.length ≤ (f a.1).length)) ∨
        (cur' = none ∧ (∃ c, cur = some c) ∧ (∀ x, x ∈ rows ↔ x ∈ rc ∧ Want h a x) ∧ rows.length ≤ rc.length)) := by
  have hg : ∀ r, Data h r → IsPair h r a.1 a.2 → ∃ d, d.toNat ≠ 0 ∧ findDocument h r = some (some d) := fun r h1 h2 => by
    obtain ⟨d, _, g1, _, g2⟩ := owner hI hD ha h1 h2
    exact ⟨d, g1, g2⟩
  unfold collect
  rcases he : (if isRecVal a.2 = true then none else src.hash) with _ | f
  rotate_left
  · -- hash index
    dsimp only
    have hrec : isRecVal a.2 = false := by
      cases hx : isRecVal a.2 with
      | false => rfl
      | true => rw [hx] at he; simp at he
    have he : src.hash = some f := by rw [hrec] at he; simpa using he
    have hx := hS.hash f he a ha hrec
    have hfold := fold_step (mem := mem) (f := step (addDoc h mem)) (g := gives h a) (f a.1 a.2) hn (fun _ => rfl) (fun r hm set rows hrep => by
      obtain ⟨h1, h2⟩ := (hx r).1 hm
      obtain ⟨d, g1, g2⟩ := hg r h1 h2
      have e : gives h a r = [d.toNat] := by unfold gives; rw [if_pos h2, g2]
      rw [e]
      exact step_adds (addDoc_ok g1 g2 hrep))
    rcases hfold with ⟨e, hm⟩ | ⟨s', e, hs'⟩
    · exact .inl ⟨by rw [e]; rfl, hm⟩
    · refine .inr ⟨s', cur, _, by rw [e]; rfl, hs', .inl ⟨rfl, fun x => ?_, .inr (.inl ⟨f, he, ?_⟩)⟩⟩
      · rw [List.nil_append]
        exact gives_want hI hD ha (fun r hr => ((hx r).1 hr).1) (fun r h1 h2 => (hx r).2 ⟨h1, h2⟩) x
      · rw [List.nil_append]
        exact flatMap_length (gives_length _ _) _
  rcases key with _ | k
  rotate_left
  · -- key index
    dsimp only
    have hkk : src.key = some k := by
      rcases hk with e | e
      · cases e
      · exact e.symm
    have hx := hS.key k hkk a ha
    have hfold := fold_step (mem := mem) (f := step (mergeKey h mem a)) (g := gives h a) (k a.1) hn (fun _ => rfl) (fun r hm set rows hrep => by
      obtain ⟨⟨rcd, h1, h1'⟩, fs, k', h2, h3, h4⟩ := (hx r).1 hm
      have hfs : rcd.fields = fs := by simpa [view, h1] using h2
      obtain ⟨m1, m2⟩ := mergeKey_ok hI (mem := mem) (a := a) h1 (fun k2 e => by
        rw [hfs, h3] at e; cases e; exact h4) (hg r ⟨rcd, h1, h1'⟩) hrep
      by_cases hp : IsPair h r a.1 a.2
      · obtain ⟨d, g2, g3⟩ := m1 hp
        have e : gives h a r = [d.toNat] := by unfold gives; rw [if_pos hp, g2]
        rw [e]
        exact step_adds g3
      · have e : gives h a r = [] := by unfold gives; rw [if_neg hp]
        rw [e]
        exact step_none hrep (m2 hp))
    rcases hfold with ⟨e, hm⟩ | ⟨s', e, hs'⟩
    · exact .inl ⟨by rw [e]; rfl, hm⟩
    · refine .inr ⟨s', cur, _, by rw [e]; rfl, hs', .inl ⟨rfl, fun x => ?_, .inr (.inr ⟨k, hkk, ?_⟩)⟩⟩
      · rw [List.nil_append]
        refine gives_want hI hD ha (fun r hr => ((hx r).1 hr).1) (fun r h1 h2 => (hx r).2 ⟨h1, ?_⟩) x
        obtain ⟨fs, k', w, e1, e2, _, e3, _⟩ := h2
        exact ⟨fs, k', e1, e2, e3⟩
      · rw [List.nil_append]
        exact flatMap_length (gives_length _ _) _
  rcases cur with _ | c
  rotate_left
  · -- scan of the current documents
    dsimp only
    obtain ⟨c1, c2⟩ := hc c rfl
    rw [fold_all c1]
    let g : Nat → List Nat := fun n => open Classical in if Want h a n then [n] else []
    have hfold := fold_step (mem := mem) (f := fun st n => step (mergeRec h mem a 7) st (BitVec.ofNat 64 n)) (g := g) rc hn (fun _ => rfl) (fun n hm set rows hrep => by
      obtain ⟨d, hd, rfl⟩ := c2 n hm
      have hof : BitVec.ofNat 64 d.toNat = d := by simp
      obtain ⟨m1, m2⟩ := mergeRec_ok hI hD (mem := mem) (a := a) hd 7 0 d set rfl .here hrep
      have hu : Under h d a.1 a.2 ↔ Want h a d.toNat := by
        constructor
        · exact fun h => ⟨d, hd, rfl, h⟩
        · rintro ⟨d', _, e, h⟩
          have : d' = d := BitVec.eq_of_toNat_eq e
          exact this ▸ h
      rw [hof]
      by_cases hw : Want h a d.toNat
      · have e : g d.toNat = [d.toNat] := if_pos hw
        rw [e]
        exact step_adds (m1 (hu.2 hw))
      · have e : g d.toNat = [] := if_neg hw
        rw [e]
        exact step_none hrep (m2 (fun h => hw (hu.1 h))))
    rcases hfold with ⟨e, hm⟩ | ⟨s', e, hs'⟩
    · exact .inl ⟨by rw [e]; rfl, hm⟩
    · refine .inr ⟨s', none, _, by rw [e]; rfl, hs', .inr ⟨rfl, ⟨c, rfl⟩, fun x => ?_, ?_⟩⟩
      · rw [List.nil_append, List.mem_flatMap]
        constructor
        · rintro ⟨n, h1, h2⟩
          by_cases hw : Want h a n
          · have e : g n = [n] := if_pos hw
            rw [e, List.mem_singleton] at h2
            subst h2
            exact ⟨h1, hw⟩
          · have e : g n = [] := if_neg hw
            rw [e] at h2
            cases h2
        · rintro ⟨h1, h2⟩
          refine ⟨x, h1, ?_⟩
          have e : g x = [x] := if_pos h2
          rw [e]
          exact List.mem_singleton.2 rfl
      · rw [List.nil_append]
        refine flatMap_length (fun n => ?_) rc
        by_cases hw : Want h a n
        · have e : g n = [n] := if_pos hw
          rw [e]; simp
        · have e : g n = [] := if_neg hw
          rw [e]; simp
  · -- scan of the database
    dsimp only
    have hfold := fold_step (mem := mem) (f := step (mergeKv h mem a)) (g := gives h a) src.recs hn (fun _ => rfl) (fun r hm set rows hrep => by
      have hda := (hS.recs r).1 hm
      obtain ⟨rcd, h1, h1'⟩ := hda
      obtain ⟨m1, m2⟩ := mergeKv_ok hI (mem := mem) (a := a) h1 (hg r ⟨rcd, h1, h1'⟩) hrep
      by_cases hp : IsPair h r a.1 a.2
      · obtain ⟨d, g2, g3⟩ := m1 hp
        have e : gives h a r = [d.toNat] := by unfold gives; rw [if_pos hp, g2]
        rw [e]
        exact step_adds g3
      · have e : gives h a r = [] := by unfold gives; rw [if_neg hp]
        rw [e]
        exact step_none hrep (m2 hp))
    rcases hfold with ⟨e, hm⟩ | ⟨s', e, hs'⟩
    · exact .inl ⟨by rw [e]; rfl, hm⟩
    · refine .inr ⟨s', none, _, by rw [e]; rfl, hs', .inl ⟨rfl, fun x => ?_, .inl ?_⟩⟩
      · rw [List.nil_append]
        exact gives_want hI hD ha (fun r hr => (hS.recs r).1 hr) (fun r h1 h2 => (hS.recs r).2 h1) x
      · rw [List.nil_append]
        exact flatMap_length (gives_length _ _) _

/-- One clause. -/
theorem clause_ok (hS : SrcOk h src args) {key : Option (Word → List Word)} (hk : key = none ∨ key = src.key) {mem : JMem} {hash : Nat → Nat} {i : Nat} {a : Arg} (ha : a ∈ args)
    {cur : Option RSet} {rc : List Nat} (hc : ∀ c, cur = some c → Rep c rc ∧ rc.Nodup ∧ (Enough mem src args → rc.length ≤ maxRows) ∧ ∀ x ∈ rc, ∃ d, IsDocument h d ∧ d.toNat = x) :
    (clause h src key mem hash i a cur = some none ∧ ¬ Enough mem src args) ∨
    ∃ z rows, clause h src key mem hash i a cur = some (some z) ∧ Rep z rows ∧ rows.Nodup ∧ (Enough mem src args → rows.length ≤ maxRows) ∧
      ∀ x, x ∈ rows ↔ (∀ c, cur = some c → x ∈ rc) ∧ Want h a x := by
  unfold clause
  cases hcr : create (mem.set (3 * i)) with
  | none =>
    refine .inl ⟨rfl, fun hE => ?_⟩
    have := hE.create (3 * i)
    simp [create, this] at hcr
  | some next =>
    dsimp only
    rcases collect_ok hI hD hS hk (mem := mem.set (3 * i)) ha (fun c e => ⟨(hc c e).1, (hc c e).2.2.2⟩) (rep_create hcr) with ⟨e, n, hn⟩ | ⟨next', cur', rows, e, hrep, hrows⟩
    · rw [e]
      exact .inl ⟨rfl, fun hE => by rw [hE.page] at hn; cases hn⟩
    · rw [e]
      dsimp only
      have hbound : Enough mem src args → rows.length ≤ maxRows := by
        intro hE
        rcases hrows with ⟨_, _, h1 | ⟨f, h1, h2⟩ | ⟨f, h1, h2⟩⟩ | ⟨_, ⟨c, hcc⟩, _, h1⟩
        · exact h1.trans hE.recs
        · exact h2.trans (hE.hash f h1 a ha)
        · exact h2.trans (hE.key f h1 a ha)
        · exact h1.trans ((hc c hcc).2.2.1 hE)
      obtain ⟨u1, u2⟩ := unique_spec (mem := mem.set (3 * i + 1)) (hash := hash) hrep
      cases hu : unique (mem.set (3 * i + 1)) hash next' with
      | none =>
        refine .inl ⟨rfl, fun hE => ?_⟩
        rcases u2 hu with h | h | ⟨p, h⟩ | h
        · rw [hE.create] at h; cases h
        · rw [hE.dhash] at h; cases h
        · rw [hE.page] at h; cases h
        · have := hbound hE
          unfold maxRows at this
          omega
      | some u =>
        obtain ⟨V, v1, v2, v3, v4⟩ := u1 u hu
        have hVmem : ∀ x, x ∈ V ↔ x ∈ rows := fun x => ⟨fun h => v3.subset h, v4 x⟩
        have hVlen : Enough mem src args → V.length ≤ maxRows := fun hE => v3.length_le.trans (hbound hE)
        dsimp only
        rcases hrows with ⟨rfl, hw, _⟩ | ⟨rfl, ⟨c, rfl⟩, hw, _⟩
        · cases cur' with
          | none => exact .inr ⟨u, V, rfl, v1, v2, hVlen, fun x => by rw [hVmem, hw]; simp⟩
          | some c =>
            obtain ⟨c1, c2, c3, c4⟩ := hc c rfl
            obtain ⟨i1, i2⟩ := intersect_spec (mem := mem.set (3 * i + 2)) (hash := hash) c1 v1
            dsimp only
            cases hin : intersect (mem.set (3 * i + 2)) hash c u with
            | none =>
              refine .inl ⟨rfl, fun hE => ?_⟩
              rcases i2 hin with h | h | ⟨p, h⟩ | h
              · rw [hE.create] at h; cases h
              · rw [hE.dhash] at h; cases h
              · rw [hE.page] at h; cases h
              · have := hVlen hE
                unfold maxRows at this
                omega
            | some z =>
              right
              rcases i1 z hin with h | h
              · refine ⟨z, _, rfl, h, c2.filter _, fun hE => (List.length_filter_le _ _).trans (c3 hE), fun x => ?_⟩
                simp [hVmem, hw]
              · refine ⟨z, _, rfl, h, v2.filter _, fun hE => (List.length_filter_le _ _).trans (hVlen hE), fun x => ?_⟩
                simp [hVmem, hw, and_comm]
        · exact .inr ⟨u, V, rfl, v1, v2, hVlen, fun x => by rw [hVmem, hw]; simp⟩

/-- All clauses. -/
theorem clauses_ok (hS : SrcOk h src args) {key : Option (Word → List Word)} (hk : key = none ∨ key = src.key) {mem : JMem} {hash : Nat → Nat} :
    ∀ (l : List Arg) (i : Nat) (cur : Option RSet) (rc : List Nat), (∀ a ∈ l, a ∈ args) → (l ≠ [] ∨ cur ≠ none) →
      (∀ c, cur = some c → Rep c rc ∧ rc.Nodup ∧ (Enough mem src args → rc.length ≤ maxRows) ∧ ∀ x ∈ rc, ∃ d, IsDocument h d ∧ d.toNat = x) →
      (clauses h src key mem hash i l cur = some none ∧ ¬ Enough mem src args) ∨
      ∃ z rows, clauses h src key mem hash i l cur = some (some z) ∧ Rep z rows ∧ rows.Nodup ∧
        (∀ x, x ∈ rows ↔ (∀ c, cur = some c → x ∈ rc) ∧ ∀ a ∈ l, Want h a x)
  | [], i, cur, rc, _, h0, hc => by
    cases cur with
    | none => simp at h0
    | some c =>
      obtain ⟨c1, c2, _, _⟩ := hc c rfl
      exact .inr ⟨c, rc, rfl, c1, c2, fun x => by simp⟩
  | a :: l, i, cur, rc, hl, _, hc => by
    unfold clauses
    rcases clause_ok hI hD hS hk (mem := mem) (hash := hash) (i := i) (hl a List.mem_cons_self) hc with ⟨e, hE⟩ | ⟨z, rows, e, e1, e2, e3, e4⟩
    · rw [e]
      exact .inl ⟨rfl, hE⟩
    · rw [e]
      dsimp only
      rcases clauses_ok hS hk (mem := mem) (hash := hash) l (i + 1) (some z) rows (fun b hb => hl b (List.mem_cons_of_mem _ hb)) (.inr (by simp)) (fun c ec => by
        cases ec
        refine ⟨e1, e2, e3, fun x hx => ?_⟩
        obtain ⟨d, h1, h2, _⟩ := ((e4 x).1 hx).2
        exact ⟨d, h1, h2⟩) with ⟨g, hE⟩ | ⟨z', rows', g, g1, g2, g3⟩
      · exact .inl ⟨g, hE⟩
      · refine .inr ⟨z', rows', g, g1, g2, fun x => ?_⟩
        rw [g3]
        simp only [Option.some.injEq, forall_eq', e4, List.forall_mem_cons]
        tauto

end

/-- Reading the pages of a result set through a query object. -/
theorem rep_fetches {db : Query.DB Word} {k : Nat} {q : Query.Query Word} {z : RSet} {rows : List Nat} (h : Rep z rows) (hq : q.qtype = .prefetch) (hp : q.pages = z.pages) (hi : q.pidx = 0) :
    Query.Fetches db k q rows := by
  refine Query.fetches_pages rows (z := 63 * z.pages.length - rows.length) hq (fun p hp' => h.lens p (hp ▸ hp')) (by rw [hi]; decide) ?_ h.nz
  rw [hi, hp, List.drop_zero]
  have hlen : z.pages.flatten.length = 63 * z.pages.length := by
    have := h.lens
    generalize z.pages = P at this
    induction P with
    | nil => rfl
    | cons p P ih =>
      rw [List.flatten_cons, List.length_append, this p List.mem_cons_self, ih (fun p hp => this p (List.mem_cons_of_mem _ hp)), List.length_cons]
      omega
  have hget : ∀ (P : List (List Nat)), (∀ p ∈ P, p.length = 63) → ∀ j, P.flatten.getD j 0 = (P.getD (j / 63) []).getD (j % 63) 0 := by
    intro P
    induction P with
    | nil => intro _ j; simp
    | cons p P ih =>
      intro hP j
      have hp63 := hP p List.mem_cons_self
      by_cases hj : j < 63
      · rw [List.flatten_cons, List.getD_append _ _ _ _ (by omega)]
        have e1 : j / 63 = 0 := by omega
        have e2 : j % 63 = j := by omega
        rw [e1, e2]; rfl
      · rw [List.flatten_cons, List.getD_append_right _ _ _ _ (by omega), ih (fun p hp => hP p (List.mem_cons_of_mem _ hp)), hp63]
        have e1 : j / 63 = (j - 63) / 63 + 1 := by omega
        have e2 : j % 63 = (j - 63) % 63 := by omega
        rw [e1, e2]; rfl
  apply List.ext_getElem
  · rw [hlen, List.length_append, List.length_replicate]
    have := h.hi
    omega
  · intro j h1 h2
    have e1 := hget z.pages h.lens j
    rw [List.getD_eq_getElem _ _ h1] at e1
    rw [e1, h.slot (j / 63) (j % 63) (by omega) (Nat.mod_lt _ (by decide)), ← List.getD_eq_getElem _ 0 h2]
    have e2 : 63 * (j / 63) + j % 63 = j := by omega
    rw [e2]
    by_cases hj : j < rows.length
    · rw [List.getD_append _ _ _ _ hj]
    · rw [List.getD_append_right _ _ _ _ (by omega), List.getD_eq_default _ _ (by omega)]
      rw [List.getD_replicate]
      omega

/-- A document query returns exactly the documents that contain all the given key-value pairs, at any level, each once, with or without indexes; it returns NULL only
if memory runs out or there are too many rows. -/
theorem query_exact (hI : Inv C h) (hD : DocsOk h args) (hS : SrcOk h src args) (h0 : args ≠ []) (mem : JMem) (hash : Nat → Nat) :
    (makeJsonQuery h src mem hash args = some none ∧ ¬ Enough mem src args) ∨
    ∃ q rows, makeJsonQuery h src mem hash args = some (some q) ∧ (∀ db k, Query.Fetches db k q rows) ∧ q.resCount = some rows.length ∧ rows.Nodup ∧
      ∀ x, x ∈ rows ↔ ∃ d, IsDocument h d ∧ d.toNat = x ∧ ∀ a ∈ args, Contains h d a.1 a.2 := by
  unfold makeJsonQuery
  rw [if_neg h0]
  dsimp only
  have hp : (∀ a, a ∈ (prepare src mem args).1 ↔ a ∈ args) ∧ ((prepare src mem args).2 = none ∨ (prepare src mem args).2 = src.key) := by
    unfold prepare
    split_ifs with h1 h2 h3 h3
    · exact ⟨fun a => Iff.rfl, .inl rfl⟩
    all_goals refine ⟨fun a => ?_, ?_⟩
    all_goals first | exact .inl rfl | exact .inr rfl | exact Iff.rfl | skip
    all_goals
      simp only [sortArgs, List.mem_append, List.mem_filter]
      cases isRecVal a.2 <;> simp
  obtain ⟨hp1, hp2⟩ := hp
  have hne : (prepare src mem args).1 ≠ [] := by
    cases args with
    | nil => exact absurd rfl h0
    | cons a l => exact List.ne_nil_of_mem ((hp1 a).2 List.mem_cons_self)
  rcases clauses_ok hI hD hS hp2 (mem := mem) (hash := hash) (prepare src mem args).1 0 none [] (fun a ha => (hp1 a).1 ha) (.inl hne) (fun c e => by cases e) with
    ⟨e, hE⟩ | ⟨z, rows, e, e1, e2, e3⟩
  · rw [e]
    exact .inl ⟨rfl, hE⟩
  · rw [e]
    dsimp only
    by_cases hq : mem.query = true
    · rw [if_pos hq]
      refine .inr ⟨_, rows, rfl, fun db k => rep_fetches e1 rfl rfl rfl, by rw [e1.count], e2, fun x => ?_⟩
      rw [e3]
      constructor
      · rintro ⟨_, hw⟩
        obtain ⟨a, ha⟩ := List.exists_mem_of_ne_nil _ h0
        obtain ⟨d, g1, g2, _⟩ := hw a ((hp1 a).2 ha)
        refine ⟨d, g1, g2, fun b hb => ?_⟩
        obtain ⟨d', f1, f2, f3⟩ := hw b ((hp1 b).2 hb)
        have : d' = d := BitVec.eq_of_toNat_eq (by rw [f2, g2])
        exact this ▸ f3
      · rintro ⟨d, g1, g2, g3⟩
        exact ⟨by simp, fun a ha => ⟨d, g1, g2, g3 a ((hp1 a).1 ha)⟩⟩
    · rw [if_neg hq]
      exact .inl ⟨rfl, fun hE => hq hE.query⟩

end WG.JsonQuery
