import Verif.Serve.AuthSpec

/-!
# The server: nobody does what they may not do
-/
namespace WG.Serve
open WG.Csv (Str asc)
open Spec

theorem aux_name (n : Option Str) (l : List Str) : authorizeAux n l true = true ↔ NameIn l n := by
  unfold authorizeAux NameIn
  by_cases h : l = []
  · simp [h]
  · rw [if_neg h]
    cases n with
    | none => simp [h]
    | some s =>
      cases s with
      | nil => simp [h]
      | cons a s => simp [h]

theorem aux_ip (n : Option Str) (l : List Str) : authorizeAux n l false = true ↔ IpIn l n := by
  unfold authorizeAux IpIn
  by_cases h : l = []
  · simp [h]
  · rw [if_neg h]
    cases n with
    | none => simp [h]
    | some s =>
      cases s with
      | nil =>
        simp only [h, false_or, List.length_nil]
        constructor
        · intro hh; simp at hh
        · rintro ⟨s, t, e, hn, _⟩
          exact absurd (Option.some.inj e).symm hn
      | cons a s =>
        simp only [h, false_or, List.length_cons, List.any_eq_true]
        rw [if_neg (by omega), List.any_eq_true]
        constructor
        · rintro ⟨x, hx, hp⟩
          obtain ⟨t, ht⟩ := List.isPrefixOf_iff_prefix.1 hp
          exact ⟨x, t, by rw [ht], by rw [ht]; simp, hx⟩
        · rintro ⟨x, t, e, hn, hx⟩
          exact ⟨x, hx, List.isPrefixOf_iff_prefix.2 ⟨t, (Option.some.inj e).symm⟩⟩

theorem name_open (c : Conf) (db : Str) : NameIn c.dbases (some db) → Open c db := by
  rintro (h | ⟨s, e, _, hs⟩)
  · exact Or.inl h
  · exact Or.inr (Option.some.inj e ▸ hs)

/-- C72 (the decision): the check admits a client exactly when the client has the right and, unless it is the command line, the database that is named is in the list of databases. -/
theorem C72_decision (c : Conf) (cl : Client) (l : Level) (db token : Option Str) :
    authorize c cl l db token = true ↔
      (cl.isserver = false ∧ cl.iscgi = false) ∨ (Granted c cl l token ∧ (db = none ∨ NameIn c.dbases db)) := by
  unfold authorize Granted
  by_cases h0 : cl.isserver = false ∧ cl.iscgi = false
  · simp [h0.1, h0.2]
  · rw [if_neg (by cases h1 : cl.isserver <;> cases h2 : cl.iscgi <;> simp_all)]
    simp only [h0, false_or]
    have hd : (db.isSome && !authorizeAux db c.dbases true) = true ↔ ¬ (db = none ∨ NameIn c.dbases db) := by
      rw [← aux_name]
      cases db <;> simp
    by_cases h1 : db = none ∨ NameIn c.dbases db
    · rw [if_neg (fun hh => hd.1 hh h1)]
      simp only [h1, and_true]
      cases l <;> simp [Level.covers, ← aux_ip, ← aux_name, ips, tokens, or_assoc]
    · rw [if_pos (hd.2 h1)]
      simp [h1]

theorem listed_open (c : Conf) (db : Str) : listed c db = true ↔ Open c db := by
  unfold listed Open
  by_cases h : c.dbases = []
  · simp [h]
  · rw [if_neg h]
    simp [h]

theorem granted_of (c : Conf) (cl : Client) (l : Level) (db token : Option Str) (h : authorize c cl l db token = true) : Granted c cl l token :=
  ((C72_decision c cl l db token).1 h).elim Or.inl And.left

theorem attach_eq {c : Conf} {there : Str → Bool} {o : Option Str} {d : Str} (h : attach c there o = some d) :
    d = o.getD (defaultDb c) ∧ Open c d ∧ there d = true := by
  unfold attach at h
  simp only at h
  by_cases hc : (listed c (o.getD (defaultDb c)) && there (o.getD (defaultDb c))) = true
  · rw [if_pos hc] at h
    rw [Bool.and_eq_true] at hc
    cases h
    exact ⟨rfl, (listed_open _ _).1 hc.1, hc.2⟩
  · rw [if_neg hc] at h
    cases h

theorem opCreate_eq {c : Conf} {atol : Str → Int} {o : Option Str} {n : Int} {d : Str} {m : Int} (h : opCreate c atol o n = some (d, m)) :
    d = o.getD (defaultDb c) ∧ Open c d ∧ 0 < m ∧ m ≤ maxSize c atol := by
  unfold opCreate at h
  dsimp only at h
  generalize (if n ≤ 0 then (match c.defaultSize with | [] => 10000000 | s :: _ => atol s) else n) = k at h
  by_cases hc : (listed c (o.getD (defaultDb c)) && decide (0 < k) && decide (k ≤ maxSize c atol)) = true
  · rw [if_pos hc] at h
    simp only [Bool.and_eq_true, decide_eq_true_eq] at hc
    cases h
    exact ⟨rfl, (listed_open _ _).1 hc.1.1, hc.1.2, hc.2⟩
  · rw [if_neg hc] at h
    cases h

theorem generic_token {p : Str × Str} {t u : Option Str} (h : genericParam p t = some u) :
    (p.1 = asc "token" ∧ u = some p.2) ∨ (p.1 ≠ asc "token" ∧ u = t) := by
  unfold genericParam at h
  simp only at h
  have n1 : asc "depth" ≠ asc "token" := by decide
  have n2 : asc "showid" ≠ asc "token" := by decide
  have n3 : asc "format" ≠ asc "token" := by decide
  have n4 : asc "escape" ≠ asc "token" := by decide
  by_cases h1 : p.1 = asc "depth"
  · rw [if_pos h1] at h; exact Or.inr ⟨h1 ▸ n1, (Option.some.inj h).symm⟩
  rw [if_neg h1] at h
  by_cases h2 : p.1 = asc "showid"
  · rw [if_pos h2] at h
    split at h
    · exact Or.inr ⟨h2 ▸ n2, (Option.some.inj h).symm⟩
    · cases h
  rw [if_neg h2] at h
  by_cases h3 : p.1 = asc "format"
  · rw [if_pos h3] at h
    split at h
    · exact Or.inr ⟨h3 ▸ n3, (Option.some.inj h).symm⟩
    · cases h
  rw [if_neg h3] at h
  by_cases h4 : p.1 = asc "escape"
  · rw [if_pos h4] at h
    split at h
    · exact Or.inr ⟨h4 ▸ n4, (Option.some.inj h).symm⟩
    · cases h
  rw [if_neg h4] at h
  by_cases h5 : p.1 = asc "token"
  · rw [if_pos h5] at h; exact Or.inl ⟨h5, (Option.some.inj h).symm⟩
  rw [if_neg h5] at h
  split at h
  · exact Or.inr ⟨h5, (Option.some.inj h).symm⟩
  · cases h

/-- The token so far after the parameters `done`. -/
theorem token_other {ps : Params} {t : Option Str} {p : Str × Str} (h : Token ps t) (hp : p.1 ≠ asc "token") : Token (ps ++ [p]) t := by
  cases h with
  | none _ h => exact .none _ (fun q hq => by
      rcases List.mem_append.1 hq with h1 | h1
      · exact h q h1
      · rw [List.mem_singleton.1 h1]; exact hp)
  | last as t bs h =>
    rw [List.append_assoc, List.cons_append]
    exact .last as t (bs ++ [p]) (fun q hq => by
      rcases List.mem_append.1 hq with h1 | h1
      · exact h q h1
      · rw [List.mem_singleton.1 h1]; exact hp)

theorem token_step {ps : Params} {t u : Option Str} {p : Str × Str} (h : Token ps t) (hg : genericParam p t = some u) : Token (ps ++ [p]) u := by
  rcases generic_token hg with ⟨h1, h2⟩ | ⟨h1, h2⟩
  · subst h2
    have : p = (asc "token", p.2) := by rw [← h1]
    have h3 := Token.last ps p.2 [] (fun q hq => by cases hq)
    rwa [← this] at h3
  · subst h2; exact token_other h h1

theorem tokenLoop_spec (own : List Str) (ho : asc "token" ∉ own) :
    ∀ (ps : Params) (t u : Option Str) (before : Params), Token before t → tokenLoop own ps t = some u → Token (before ++ ps) u
  | [], t, u, before, hb, h => by
    rw [tokenLoop] at h
    cases h
    rwa [List.append_nil]
  | p :: ps, t, u, before, hb, h => by
    rw [tokenLoop] at h
    by_cases hp : p.1 ∈ own
    · rw [if_pos hp] at h
      have := tokenLoop_spec own ho ps t u (before ++ [p]) (token_other hb (fun e => ho (e ▸ hp))) h
      simpa using this
    · rw [if_neg hp] at h
      obtain ⟨w, hw, h⟩ := Option.bind_eq_some_iff.1 h
      have := tokenLoop_spec own ho ps w u (before ++ [p]) (token_step hb hw) h
      simpa using this

theorem createLoop_spec (c : Conf) (atol : Str → Int) :
    ∀ (ps : Params) (d : Option Str) (n : Int) (t : Option Str) (r : Option Str × Int × Option Str) (before : Params), Token before t →
      createLoop c atol ps d n t = some r → Token (before ++ ps) r.2.2 ∧ (r.1 = d ∨ ∃ e, r.1 = some e ∧ (asc "db", e) ∈ ps)
  | [], d, n, t, r, before, hb, h => by
    rw [createLoop] at h
    cases h
    rw [List.append_nil]
    exact ⟨hb, Or.inl rfl⟩
  | p :: ps, d, n, t, r, before, hb, h => by
    rw [createLoop] at h
    have e0 : before ++ p :: ps = (before ++ [p]) ++ ps := by simp
    rw [e0]
    by_cases hp : p.1 = asc "db"
    · rw [if_pos hp] at h
      split at h
      · cases h
      · have := createLoop_spec c atol ps _ n t r (before ++ [p]) (token_other hb (by rw [hp]; decide)) h
        refine ⟨this.1, Or.inr ?_⟩
        rcases this.2 with h2 | ⟨e, h2, h3⟩
        · exact ⟨p.2, h2, by rw [← hp]; exact List.mem_cons_self⟩
        · exact ⟨e, h2, List.mem_cons_of_mem _ h3⟩
    rw [if_neg hp] at h
    by_cases hs : p.1 = asc "size"
    · rw [if_pos hs] at h
      split at h
      · cases h
      · have := createLoop_spec c atol ps d _ t r (before ++ [p]) (token_other hb (by rw [hs]; decide)) h
        exact ⟨this.1, this.2.imp id (fun ⟨e, h2, h3⟩ => ⟨e, h2, List.mem_cons_of_mem _ h3⟩)⟩
    rw [if_neg hs] at h
    obtain ⟨w, hw, h⟩ := Option.bind_eq_some_iff.1 h
    have := createLoop_spec c atol ps d n w r (before ++ [p]) (token_step hb hw) h
    exact ⟨this.1, this.2.imp id (fun ⟨e, h2, h3⟩ => ⟨e, h2, List.mem_cons_of_mem _ h3⟩)⟩

theorem dropLoop_spec (atol : Str → Int) :
    ∀ (ps : Params) (d : Str) (t : Option Str) (r : Str × Option Str) (before : Params), Token before t →
      dropLoop atol ps d t = some r → Token (before ++ ps) r.2 ∧ (r.1 = d ∨ (asc "db", r.1) ∈ ps)
  | [], d, t, r, before, hb, h => by
    rw [dropLoop] at h
    cases h
    rw [List.append_nil]
    exact ⟨hb, Or.inl rfl⟩
  | p :: ps, d, t, r, before, hb, h => by
    rw [dropLoop] at h
    have e0 : before ++ p :: ps = (before ++ [p]) ++ ps := by simp
    rw [e0]
    by_cases hp : p.1 = asc "db"
    · rw [if_pos hp] at h
      split at h
      · cases h
      · have := dropLoop_spec atol ps _ t r (before ++ [p]) (token_other hb (by rw [hp]; decide)) h
        refine ⟨this.1, Or.inr ?_⟩
        rcases this.2 with h2 | h3
        · rw [h2, ← hp]; exact List.mem_cons_self
        · exact List.mem_cons_of_mem _ h3
    rw [if_neg hp] at h
    obtain ⟨w, hw, h⟩ := Option.bind_eq_some_iff.1 h
    have := dropLoop_spec atol ps d w r (before ++ [p]) (token_step hb hw) h
    exact ⟨this.1, this.2.imp id (List.mem_cons_of_mem _)⟩

theorem findDb_spec (c : Conf) (atol : Str → Int) : ∀ (ps : Params) (d : Str), findDb c atol ps = some d → d = defaultDb c ∨ (asc "db", d) ∈ ps
  | [], d, h => by rw [findDb] at h; exact Or.inl (Option.some.inj h).symm
  | p :: ps, d, h => by
    rw [findDb] at h
    by_cases hp : p.1 = asc "db" ∧ p.2 ≠ []
    · rw [if_pos hp] at h
      split at h
      · cases h
      · refine Or.inr ?_
        rw [← Option.some.inj h, ← hp.1]
        exact List.mem_cons_self
    · rw [if_neg hp] at h
      exact (findDb_spec c atol ps d h).imp id (List.mem_cons_of_mem _)

/-- What is known of an action that the server performs. -/
structure Lawful (c : Conf) (cl : Client) (atol : Str → Int) (ps : Params) (a : Action) : Prop where
  granted : ∃ t, Token ps t ∧ Granted c cl (needs a) t
  open_ : Open c (base a)
  named : base a = defaultDb c ∨ (asc "db", base a) ∈ ps
  size : ∀ d n, a = .create d n → 0 < n ∧ n ≤ maxSize c atol

theorem search_lawful {c : Conf} {cl : Client} {there : Str → Bool} {atol : Str → Int} {ps : Params} {d : Str} {ch : Bool} {a : Action}
    (hd : d = defaultDb c ∨ (asc "db", d) ∈ ps) (h : search c cl there d ps ch = some a) :
    Lawful c cl atol ps a ∧ (ch = false → needs a = .read) := by
  unfold search at h
  obtain ⟨t, ht, h⟩ := Option.bind_eq_some_iff.1 h
  have htok := tokenLoop_spec searchOwn (by decide) ps none t [] (.none _ (fun q hq => by cases hq)) ht
  rw [List.nil_append] at htok
  by_cases hA : authorize c cl (if ch = true then .write else .read) (some d) t = true
  · rw [if_pos hA] at h
    obtain ⟨e, he, hf⟩ := Option.map_eq_some_iff.1 h
    obtain ⟨h1, h2, h3⟩ := attach_eq he
    have h1 : e = d := h1
    subst h1
    clear h
    have hG := granted_of c cl _ _ t hA
    cases ch with
    | false =>
      have h : Action.look e = a := hf
      have hG : Granted c cl .read t := hG
      subst h
      exact ⟨⟨⟨t, htok, hG⟩, h2, hd, fun _ _ e => by cases e⟩, fun _ => rfl⟩
    | true =>
      have h : Action.change e = a := hf
      have hG : Granted c cl .write t := hG
      subst h
      exact ⟨⟨⟨t, htok, hG⟩, h2, hd, fun _ _ e => by cases e⟩, fun e => by cases e⟩
  · rw [if_neg hA] at h
    cases h

theorem insert_lawful {c : Conf} {cl : Client} {there : Str → Bool} {atol : Str → Int} {ps : Params} {d : Str} {a : Action}
    (hd : d = defaultDb c ∨ (asc "db", d) ∈ ps) (h : a ∈ insert c cl there atol d ps) : Lawful c cl atol ps a := by
  unfold insert at h
  split at h
  · cases h
  rename_i t ht
  have htok := tokenLoop_spec [asc "rec"] (by decide) ps none t [] (.none _ (fun q hq => by cases hq)) ht
  rw [List.nil_append] at htok
  split at h
  · cases h
  split at h
  · rename_i hA
    have hG := granted_of c cl _ _ t hA
    split at h
    · rename_i e he
      obtain ⟨h1, h2, h3⟩ := attach_eq he
      have h1 : e = d := h1
      subst h1
      rw [List.mem_singleton] at h
      subst h
      exact ⟨⟨t, htok, hG⟩, h2, hd, fun _ _ e => by cases e⟩
    · split at h
      · rename_i hA2
        have hG2 := granted_of c cl _ _ t hA2
        split at h
        · rename_i e n he
          obtain ⟨h1, h2, h3, h4⟩ := opCreate_eq he
          have h1 : e = d := h1
          subst h1
          rcases List.mem_cons.1 h with h | h
          · subst h
            exact ⟨⟨t, htok, hG2⟩, h2, hd, fun _ _ e => by cases e; exact ⟨h3, h4⟩⟩
          · rw [List.mem_singleton] at h
            subst h
            exact ⟨⟨t, htok, hG⟩, h2, hd, fun _ _ e => by cases e⟩
        · cases h
      · cases h
  · cases h

theorem create_lawful {c : Conf} {cl : Client} {atol : Str → Int} {ps : Params} {a : Action}
    (h : create c cl atol ps = some a) : Lawful c cl atol ps a := by
  unfold create at h
  obtain ⟨r, hr, h⟩ := Option.bind_eq_some_iff.1 h
  have hs := createLoop_spec c atol ps none 0 none r [] (.none _ (fun q hq => by cases hq)) hr
  rw [List.nil_append] at hs
  split at h
  · rename_i hA
    have hG := granted_of c cl _ _ _ hA
    obtain ⟨x, hx, h⟩ := Option.map_eq_some_iff.1 h
    obtain ⟨e, n⟩ := x
    obtain ⟨h1, h2, h3, h4⟩ := opCreate_eq hx
    subst h
    refine ⟨⟨_, hs.1, hG⟩, h2, ?_, fun _ _ e => by cases e; exact ⟨h3, h4⟩⟩
    rcases hs.2 with h5 | ⟨e', h5, h6⟩
    · rw [h5] at h1; exact Or.inl h1
    · rw [h5] at h1
      have h1 : e = e' := h1
      subst h1
      exact Or.inr h6
  · cases h

theorem drop_lawful {c : Conf} {cl : Client} {there : Str → Bool} {atol : Str → Int} {ps : Params} {d : Str} {a : Action}
    (hd : d = defaultDb c ∨ (asc "db", d) ∈ ps) (h : drop c cl there atol d ps = some a) : Lawful c cl atol ps a := by
  unfold drop at h
  obtain ⟨r, hr, h⟩ := Option.bind_eq_some_iff.1 h
  have hs := dropLoop_spec atol ps d none r [] (.none _ (fun q hq => by cases hq)) hr
  rw [List.nil_append] at hs
  split at h
  · rename_i hA
    have hG := granted_of c cl _ _ _ hA
    split at h
    · obtain ⟨e, he, h⟩ := Option.map_eq_some_iff.1 h
      obtain ⟨h1, h2, h3⟩ := attach_eq he
      have h1 : e = r.1 := h1
      subst h
      refine ⟨⟨_, hs.1, hG⟩, h2, ?_, fun _ _ e => by cases e⟩
      show e = _ ∨ (_, e) ∈ ps
      rw [h1]
      rcases hs.2 with h5 | h5
      · rw [h5]; exact hd
      · exact Or.inr h5
    · cases h
  · cases h

/-- C72: whatever the request, the server touches a database only if the client, with the last token of the request, has the right for the action; and the database is the default one or
one that the request names, and is in the list of databases if there is one. No database is created with a size above the limit. -/
theorem C72_actions (c : Conf) (cl : Client) (there : Str → Bool) (atol : Str → Int) (ps : Params) (a : Action)
    (h : a ∈ process c cl there atol ps) :
    (∃ t, Token ps t ∧ Granted c cl (needs a) t) ∧ Open c (base a) ∧ (base a = defaultDb c ∨ (asc "db", base a) ∈ ps) ∧
      (∀ d n, a = .create d n → 0 < n ∧ n ≤ maxSize c atol) := by
  have key : Lawful c cl atol ps a := by
    unfold process at h
    split at h
    · cases h
    rename_i d hd
    have hd := findDb_spec c atol ps d hd
    split at h
    · cases h
    rename_i p hp
    split at h
    · exact (search_lawful hd (Option.mem_toList.1 h)).1
    split at h
    · exact insert_lawful hd h
    split at h
    · exact (search_lawful hd (Option.mem_toList.1 h)).1
    split at h
    · exact create_lawful (Option.mem_toList.1 h)
    split at h
    · exact drop_lawful hd (Option.mem_toList.1 h)
    cases h
  exact ⟨key.granted, key.open_, key.named, key.size⟩

theorem token_unique {ps : Params} {t u : Option Str} (h1 : Token ps t) (h2 : Token ps u) : t = u := by
  have key : ∀ {ps : Params} {t : Option Str}, Token ps t → t = ((ps.reverse.find? fun p => p.1 = asc "token").map Prod.snd) := by
    intro ps t h
    cases h with
    | none _ h =>
      rw [List.find?_eq_none.2]
      · rfl
      · intro x hx; simpa using h x (List.mem_reverse.1 hx)
    | last as t bs h =>
      have hf : (bs.reverse.find? fun p => decide (p.1 = asc "token")) = none := by
        rw [List.find?_eq_none]
        intro x hx; simpa using h x (List.mem_reverse.1 hx)
      simp [List.find?_append, hf]
  rw [key h1, key h2]

/-- C72 (locked): if there are lists of tokens for all three rights, a client of the server whose request has no token of any list gets nothing. -/
theorem C72_locked (c : Conf) (cl : Client) (there : Str → Bool) (atol : Str → Int) (ps : Params)
    (hs : cl.isserver = true ∨ cl.iscgi = true)
    (h1 : c.adminTokens ≠ []) (h2 : c.writeTokens ≠ []) (h3 : c.readTokens ≠ [])
    (hn : ∀ t, (asc "token", t) ∈ ps → t ∉ c.adminTokens ∧ t ∉ c.writeTokens ∧ t ∉ c.readTokens) :
    process c cl there atol ps = [] := by
  rw [List.eq_nil_iff_forall_not_mem]
  intro a ha
  obtain ⟨⟨t, ht, hg⟩, _⟩ := C72_actions c cl there atol ps a ha
  rcases hg with ⟨g1, g2⟩ | ⟨_, l, hl, hg⟩
  · rcases hs with hs | hs <;> simp_all
  have hl0 : tokens c l ≠ [] := by cases l <;> assumption
  rcases hg with hg | ⟨s, e, _, hm⟩
  · exact hl0 hg
  subst e
  cases ht with
  | last as _ bs _ =>
    have := hn s (by simp)
    cases l
    · exact this.1 hm
    · exact this.2.1 hm
    · exact this.2.2 hm

/-- C72 (addresses): if there are lists of addresses for all three rights, a client of the server whose address starts with none of them gets nothing. -/
theorem C72_outside (c : Conf) (cl : Client) (there : Str → Bool) (atol : Str → Int) (ps : Params)
    (hs : cl.isserver = true ∨ cl.iscgi = true)
    (h1 : c.adminIps ≠ []) (h2 : c.writeIps ≠ []) (h3 : c.readIps ≠ [])
    (hn : ∀ s t, cl.ip = some (s ++ t) → s ∉ c.adminIps ∧ s ∉ c.writeIps ∧ s ∉ c.readIps) :
    process c cl there atol ps = [] := by
  rw [List.eq_nil_iff_forall_not_mem]
  intro a ha
  obtain ⟨⟨t, ht, hg⟩, _⟩ := C72_actions c cl there atol ps a ha
  rcases hg with ⟨g1, g2⟩ | ⟨⟨l, hl, hg⟩, _⟩
  · rcases hs with hs | hs <;> simp_all
  have hl0 : ips c l ≠ [] := by cases l <;> assumption
  rcases hg with hg | ⟨s, t, e, _, hm⟩
  · exact hl0 hg
  have := hn s t e
  cases l
  · exact this.1 hm
  · exact this.2.1 hm
  · exact this.2.2 hm

/-- C72 (weaker rights): who may create databases may change them, and who may change them may read them. -/
theorem C72_weaker (c : Conf) (cl : Client) (t : Option Str) :
    (Granted c cl .admin t → Granted c cl .write t) ∧ (Granted c cl .write t → Granted c cl .read t) := by
  constructor
  · rintro (h | ⟨⟨l, hl, h⟩, ⟨m, hm, h'⟩⟩)
    · exact Or.inl h
    · refine Or.inr ⟨⟨l, ?_, h⟩, ⟨m, ?_, h'⟩⟩ <;> simp_all [Level.covers]
  · rintro (h | ⟨⟨l, hl, h⟩, ⟨m, hm, h'⟩⟩)
    · exact Or.inl h
    · refine Or.inr ⟨⟨l, ?_, h⟩, ⟨m, ?_, h'⟩⟩
      · simp only [Level.covers, List.mem_cons, List.not_mem_nil, or_false] at hl ⊢
        rcases hl with hl | hl <;> simp [hl]
      · simp only [Level.covers, List.mem_cons, List.not_mem_nil, or_false] at hm ⊢
        rcases hm with hm | hm <;> simp [hm]

/-- Parameters that a search understands. -/
def Understood (own : List Str) (ps : Params) : Prop :=
  ∀ p ∈ ps, p.1 ∈ own ∨ p.1 ∈ [asc "depth", asc "token", asc "jsonp", asc "_", asc "db", asc "op"] ∨
    (p.1 = asc "showid" ∧ p.2 ∈ [asc "yes", asc "no"]) ∨ (p.1 = asc "format" ∧ p.2 ∈ [asc "csv", asc "json"]) ∨
    (p.1 = asc "escape" ∧ p.2 ∈ [asc "no", asc "url", asc "json"])

theorem generic_ok (p : Str × Str) (t : Option Str)
    (h : p.1 ∈ [asc "depth", asc "token", asc "jsonp", asc "_", asc "db", asc "op"] ∨
      (p.1 = asc "showid" ∧ p.2 ∈ [asc "yes", asc "no"]) ∨ (p.1 = asc "format" ∧ p.2 ∈ [asc "csv", asc "json"]) ∨
      (p.1 = asc "escape" ∧ p.2 ∈ [asc "no", asc "url", asc "json"])) : ∃ u, genericParam p t = some u := by
  obtain ⟨k, v⟩ := p
  simp only at h
  unfold genericParam
  simp only
  have d1 : asc "showid" ≠ asc "depth" := by decide
  have d2 : asc "format" ≠ asc "depth" := by decide
  have d3 : asc "format" ≠ asc "showid" := by decide
  have d4 : asc "escape" ≠ asc "depth" := by decide
  have d5 : asc "escape" ≠ asc "showid" := by decide
  have d6 : asc "escape" ≠ asc "format" := by decide
  rcases h with h | ⟨h, hv⟩ | ⟨h, hv⟩ | ⟨h, hv⟩
  · simp only [List.mem_cons, List.not_mem_nil, or_false] at h
    rcases h with h | h | h | h | h | h <;> subst h
    · exact ⟨_, by rw [if_pos rfl]⟩
    · exact ⟨_, by rw [if_neg (by decide), if_neg (by decide), if_neg (by decide), if_neg (by decide), if_pos rfl]⟩
    all_goals exact ⟨_, by rw [if_neg (by decide), if_neg (by decide), if_neg (by decide), if_neg (by decide), if_neg (by decide), if_pos (by decide)]⟩
  · subst h; exact ⟨t, by rw [if_neg d1, if_pos rfl, if_pos hv]⟩
  · subst h; exact ⟨t, by rw [if_neg d2, if_neg d3, if_pos rfl, if_pos hv]⟩
  · subst h; exact ⟨t, by rw [if_neg d4, if_neg d5, if_neg d6, if_pos rfl, if_pos hv]⟩

theorem tokenLoop_ok (own : List Str) : ∀ (ps : Params) (t : Option Str), Understood own ps → ∃ u, tokenLoop own ps t = some u
  | [], t, _ => ⟨t, by rw [tokenLoop]⟩
  | p :: ps, t, h => by
    have hr : Understood own ps := fun q hq => h q (List.mem_cons_of_mem _ hq)
    rw [tokenLoop]
    by_cases hp : p.1 ∈ own
    · rw [if_pos hp]; exact tokenLoop_ok own ps t hr
    · rw [if_neg hp]
      obtain ⟨w, hw⟩ := generic_ok p t ((h p List.mem_cons_self).resolve_left hp)
      rw [hw, Option.bind_some]
      exact tokenLoop_ok own ps w hr

/-- C72 (served): a request for a search, count, update or delete whose parameters are all understood, for a database that is there and may be used, is served if the client has the
right. The first `op` decides; the database is the first that is given. -/
theorem C72_served (c : Conf) (cl : Client) (there : Str → Bool) (atol : Str → Int) (pre post : Params) (op d : Str) (change : Bool) (t : Option Str)
    (hop : op ∈ if change then [asc "update", asc "delete"] else [asc "count", asc "search", asc "select"])
    (hpre : ∀ p ∈ pre, p.1 ≠ asc "op")
    (hu : Understood searchOwn (pre ++ (asc "op", op) :: post))
    (hdb : findDb c atol (pre ++ (asc "op", op) :: post) = some d) (hne : d ≠ [])
    (ht : Token (pre ++ (asc "op", op) :: post) t) (hg : Granted c cl (if change then .write else .read) t)
    (ho : Open c d) (hthere : there d = true) :
    process c cl there atol (pre ++ (asc "op", op) :: post) = [if change then .change d else .look d] := by
  obtain ⟨u, hu'⟩ := tokenLoop_ok searchOwn _ none hu
  have htu : u = t := token_unique
    (by simpa using tokenLoop_spec searchOwn (by decide) _ none u [] (.none _ (fun q hq => by cases hq)) hu') ht
  subst htu
  have hs : search c cl there d (pre ++ (asc "op", op) :: post) change = some (if change then .change d else .look d) := by
    unfold search
    rw [hu', Option.bind_some, if_pos ((C72_decision ..).2 (Or.inr ⟨hg, Or.inr (ho.imp id (fun h => ⟨d, rfl, hne, h⟩))⟩))]
    unfold attach
    simp only [Option.getD_some]
    rw [if_pos (by rw [(listed_open c d).2 ho, hthere]; rfl)]
    rfl
  have hf : ((pre ++ (asc "op", op) :: post).find? fun p => decide (p.1 = asc "op")) = some (asc "op", op) := by
    rw [List.find?_append, List.find?_eq_none.2 (fun x hx => by simpa using hpre x hx)]
    simp
  unfold process
  rw [hdb]
  simp only [hf]
  cases change with
  | false =>
    rw [if_neg (by decide)] at hop
    rw [if_pos hop, hs]
    rfl
  | true =>
    rw [if_pos rfl] at hop
    have hop2 := hop
    simp only [List.mem_cons, List.not_mem_nil, or_false] at hop2
    rw [if_neg (by rcases hop2 with e | e <;> subst e <;> decide), if_neg (by rcases hop2 with e | e <;> subst e <;> decide), if_pos hop, hs]
    rfl

theorem find_op (pre post : Params) (op : Str) (hpre : ∀ p ∈ pre, p.1 ≠ asc "op") :
    ((pre ++ (asc "op", op) :: post).find? fun p => decide (p.1 = asc "op")) = some (asc "op", op) := by
  rw [List.find?_append, List.find?_eq_none.2 (fun x hx => by simpa using hpre x hx)]
  simp

/-- C72 (served, insertion): a request for an insertion whose parameters are all understood and that has a record, into a database that is there and may be used, is served if the
client may write. -/
theorem C72_insert_served (c : Conf) (cl : Client) (there : Str → Bool) (atol : Str → Int) (pre post : Params) (d : Str) (t : Option Str) (r : Str)
    (hpre : ∀ p ∈ pre, p.1 ≠ asc "op") (hu : Understood [asc "rec"] (pre ++ (asc "op", asc "insert") :: post))
    (hrec : lastOf (asc "rec") (pre ++ (asc "op", asc "insert") :: post) = some r) (hr : r ≠ [])
    (hdb : findDb c atol (pre ++ (asc "op", asc "insert") :: post) = some d) (hne : d ≠ [])
    (ht : Token (pre ++ (asc "op", asc "insert") :: post) t) (hg : Granted c cl .write t) (ho : Open c d) (hthere : there d = true) :
    process c cl there atol (pre ++ (asc "op", asc "insert") :: post) = [.insert d] := by
  obtain ⟨u, hu'⟩ := tokenLoop_ok [asc "rec"] _ none hu
  have htu : u = t := token_unique
    (by simpa using tokenLoop_spec [asc "rec"] (by decide) _ none u [] (.none _ (fun q hq => by cases hq)) hu') ht
  subst htu
  have hA := (C72_decision c cl .write (some d) u).2 (Or.inr ⟨hg, Or.inr (ho.imp id (fun h => ⟨d, rfl, hne, h⟩))⟩)
  have hat : attach c there (some d) = some d := by
    unfold attach
    simp only [Option.getD_some]
    rw [if_pos (by rw [(listed_open c d).2 ho, hthere]; rfl)]
  unfold process
  rw [hdb]
  simp only [find_op pre post _ hpre]
  rw [if_neg (by decide), if_pos trivial]
  unfold insert
  rw [hu']
  simp only [hrec, Option.getD_some]
  rw [if_neg hr, if_pos hA, hat]

/-- C72 (served, deletion): a request to delete a database that is there and may be used, with one `db`, is served if the client has the highest right. -/
theorem C72_drop_served (c : Conf) (cl : Client) (there : Str → Bool) (atol : Str → Int) (d tok : Str) (hn : 0 < atol d) (hne : d ≠ [])
    (hg : Granted c cl .admin (some tok)) (ho : Open c d) (hthere : there d = true) :
    process c cl there atol [(asc "db", d), (asc "op", asc "drop"), (asc "token", tok)] = [.drop d] := by
  have hA := (C72_decision c cl .admin (some d) (some tok)).2 (Or.inr ⟨hg, Or.inr (ho.imp id (fun h => ⟨d, rfl, hne, h⟩))⟩)
  have hat : attach c there (some d) = some d := by
    unfold attach
    simp only [Option.getD_some]
    rw [if_pos (by rw [(listed_open c d).2 ho, hthere]; rfl)]
  have hl : ¬ (d.length < 1 ∨ atol d ≤ 0) := by
    rintro (h | h)
    · exact hne (List.length_eq_zero_iff.1 (by omega))
    · omega
  have h1 : dropLoop atol [(asc "db", d), (asc "op", asc "drop"), (asc "token", tok)] d none = some (d, some tok) := by
    rw [dropLoop, if_pos rfl, if_neg hl, dropLoop, if_neg (by decide)]
    rfl
  have hf : findDb c atol [(asc "db", d), (asc "op", asc "drop"), (asc "token", tok)] = some d := by
    rw [findDb, if_pos ⟨rfl, hne⟩, if_neg (fun h => by have := h.1; simp only at this; omega)]
  have ho' : ([(asc "db", d), (asc "op", asc "drop"), (asc "token", tok)].find? fun p => decide (p.1 = asc "op")) = some (asc "op", asc "drop") :=
    find_op [(asc "db", d)] _ _ (by intro p hp; rw [List.mem_singleton.1 hp]; show asc "db" ≠ _; decide)
  unfold process
  rw [hf]
  simp only [ho']
  rw [if_neg (by decide), if_neg (by decide), if_neg (by decide), if_neg (by decide), if_pos trivial]
  unfold drop
  rw [h1, Option.bind_some, if_pos hA, if_pos ((listed_open c d).2 ho), hat]
  rfl

/-- C72 (served, creation): a request to create a database that may be used, with one `db` and a positive size within the limit, is served if the client has the highest right. -/
theorem C72_create_served (c : Conf) (cl : Client) (there : Str → Bool) (atol : Str → Int) (d sz tok : Str) (hn : 0 < atol d) (hne : d ≠ [])
    (hs : 0 < atol sz) (hm : atol sz ≤ maxSize c atol) (hg : Granted c cl .admin (some tok)) (ho : Open c d) :
    process c cl there atol [(asc "db", d), (asc "op", asc "create"), (asc "size", sz), (asc "token", tok)] = [.create d (atol sz)] := by
  have hA := (C72_decision c cl .admin (some d) (some tok)).2 (Or.inr ⟨hg, Or.inr (ho.imp id (fun h => ⟨d, rfl, hne, h⟩))⟩)
  have hl : ¬ (d.length < 1 ∨ atol d ≤ 0) := by
    rintro (h | h)
    · exact hne (List.length_eq_zero_iff.1 (by omega))
    · omega
  have h1 : createLoop c atol [(asc "db", d), (asc "op", asc "create"), (asc "size", sz), (asc "token", tok)] none 0 none = some (some d, atol sz, some tok) := by
    rw [createLoop, if_pos rfl, if_neg hl, createLoop, if_neg (by decide), if_neg (by decide)]
    show createLoop c atol [(asc "size", sz), (asc "token", tok)] (some d) 0 none = _
    rw [createLoop, if_neg (show asc "size" ≠ asc "db" by decide), if_pos rfl, if_neg (show ¬ maxSize c atol < atol sz by omega)]
    rfl
  have hf : findDb c atol [(asc "db", d), (asc "op", asc "create"), (asc "size", sz), (asc "token", tok)] = some d := by
    rw [findDb, if_pos ⟨rfl, hne⟩, if_neg (fun h => by have := h.1; simp only at this; omega)]
  have ho' : ([(asc "db", d), (asc "op", asc "create"), (asc "size", sz), (asc "token", tok)].find? fun p => decide (p.1 = asc "op")) = some (asc "op", asc "create") :=
    find_op [(asc "db", d)] _ _ (by intro p hp; rw [List.mem_singleton.1 hp]; show asc "db" ≠ _; decide)
  unfold process
  rw [hf]
  simp only [ho']
  rw [if_neg (by decide), if_neg (by decide), if_neg (by decide), if_pos trivial]
  unfold create
  rw [h1, Option.bind_some, if_pos hA]
  unfold opCreate
  simp only [Option.getD_some]
  simp [(listed_open c d).2 ho, hs, hm, Int.not_le.2 hs]

end WG.Serve
