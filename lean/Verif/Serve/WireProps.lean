import Verif.Serve.Wire

/-!
# The server: from the bytes of a client to what is done, theorems (C82)
-/
namespace WG.Serve.Wire
open WG.Csv (Str Byte asc)
open WG.Serve WG.Serve.Http WG.Serve.Spec

variable (conf : Conf) (cl : Client) (there : Str → Bool) (atol : Str → Int)

theorem paramsOf_of {m : List Byte} {l : List (Nat × Nat)} {ps : Params} (h : List.Forall₂ (fun x p => cstr m x.1 = some p.1 ∧ cstr m x.2 = some p.2) l ps) :
    paramsOf m l = some ps := by
  induction h with
  | nil => rfl
  | cons hx _ ih => rw [paramsOf, hx.1, hx.2, ih]; rfl

theorem of_paramsOf {m : List Byte} {l : List (Nat × Nat)} {ps : Params} (h : paramsOf m l = some ps) :
    List.Forall₂ (fun x p => cstr m x.1 = some p.1 ∧ cstr m x.2 = some p.2) l ps := by
  induction l generalizing ps with
  | nil => cases h; exact .nil
  | cons x l ih =>
    rw [paramsOf] at h
    obtain ⟨a, ha, h⟩ := Option.bind_eq_some_iff.1 h
    obtain ⟨b, hb, h⟩ := Option.bind_eq_some_iff.1 h
    obtain ⟨ps', hp, rfl⟩ := Option.map_eq_some_iff.1 h
    exact .cons ⟨ha, hb⟩ (ih hp)

theorem take_server (hs : cl.isserver = true) {q : Str} (hl : q.length ≤ 2000) : takeQuery cl.isserver q = some (some (q ++ 0#8 :: [])) := by
  unfold takeQuery
  rw [if_neg (by unfold maxQuery; omega), hs, if_pos rfl]

theorem take_shape (b : Bool) (q : Str) : takeQuery b q = none ∨ takeQuery b q = some none ∨ ∃ rest, takeQuery b q = some (some (q ++ 0#8 :: rest)) := by
  unfold takeQuery
  by_cases h1 : maxQuery < q.length
  · exact Or.inr (Or.inl (if_pos h1))
  rw [if_neg h1]
  by_cases h2 : b = true
  · exact Or.inr (Or.inr ⟨[], if_pos h2⟩)
  rw [if_neg h2]
  by_cases h3 : q.length + 1 ≤ maxQuery
  · exact Or.inr (Or.inr ⟨_, by rw [if_pos h3, List.append_assoc]; rfl⟩)
  · exact Or.inl (if_neg h3)

/-- What is done for a query comes from parameters that were read from it. -/
theorem process_from {q : Str} (h0 : 0#8 ∉ q) {as : List Action} (h : processQuery conf cl there atol q = some as) :
    as = [] ∨ ∃ raw m, ∃ l : List (Nat × Nat), ∃ ps : Params, Pairs q raw ∧ List.Forall₂ (fun x r => Reads m x.1 r.1 ∧ Reads m x.2 r.2) l raw ∧
      List.Forall₂ (fun x p => cstr m x.1 = some p.1 ∧ cstr m x.2 = some p.2) l ps ∧ as = process conf cl there atol ps := by
  unfold processQuery at h
  by_cases hq : q = []
  · rw [if_pos hq] at h; cases h; exact Or.inl rfl
  rw [if_neg hq] at h
  rcases take_shape cl.isserver q with e | e | ⟨rest, e⟩
  · rw [e] at h; cases h
  · rw [e] at h; cases h; exact Or.inl rfl
  · rw [e, Option.bind_some] at h
    by_cases hp : ∃ raw, Pairs q raw ∧ raw.length ≤ 100
    · obtain ⟨raw, h1, h2⟩ := hp
      obtain ⟨body, l, _, b2, b3⟩ := parse_ok q.length q raw h1 (q.length + 1) 0 [] rest h0 (by omega) (by omega) (by simp)
      have b2 : parseQuery (q ++ 0#8 :: rest) q.length = _ := b2
      simp only [b2, Option.bind_some] at h
      by_cases hn : l = []
      · rw [if_pos hn] at h; cases h; exact Or.inl rfl
      · rw [if_neg hn] at h
        obtain ⟨ps, hps, rfl⟩ := Option.map_eq_some_iff.1 h
        exact Or.inr ⟨raw, _, l, ps, h1, b3, of_paramsOf hps, rfl⟩
    · obtain ⟨m, e⟩ := C73_refused q rest h0 hp
      simp only [e, Option.bind_some] at h
      cases h; exact Or.inl rfl

/-- C82 (safety): whatever the query, the server reads and writes inside of its buffers and comes to a result. -/
theorem C82_defined {q : Str} (h0 : 0#8 ∉ q) (hs : cl.isserver = true) : ∃ as, processQuery conf cl there atol q = some as := by
  unfold processQuery
  by_cases hq : q = []
  · exact ⟨[], if_pos hq⟩
  rw [if_neg hq]
  by_cases hl : q.length ≤ 2000
  · rw [take_server cl hs hl, Option.bind_some]
    by_cases hp : ∃ raw, Pairs q raw ∧ raw.length ≤ 100
    · obtain ⟨raw, h1, h2⟩ := hp
      obtain ⟨body, l, _, b0, b3⟩ := parse_ok q.length q raw h1 (q.length + 1) 0 [] [] h0 (by omega) (by omega) (by simp)
      have b2 : parseQuery (q ++ 0#8 :: []) q.length = _ := b0
      simp only [b2, Option.bind_some]
      by_cases hn : l = []
      · rw [if_pos hn]; exact ⟨_, rfl⟩
      · rw [if_neg hn]
        have : ∃ ps, paramsOf ([] ++ body ++ []) l = some ps := by
          clear hn h1 h2 b2 b0
          generalize [] ++ body ++ [] = m at b3 ⊢
          induction b3 with
          | nil => exact ⟨[], rfl⟩
          | cons hx _ ih =>
            obtain ⟨⟨_, v, _, _, e1⟩, ⟨_, v', _, _, e2⟩⟩ := hx
            obtain ⟨ps, e⟩ := ih
            exact ⟨(v, v') :: ps, by rw [paramsOf, e1, e2, e]; rfl⟩
        obtain ⟨ps, e⟩ := this
        exact ⟨process conf cl there atol ps, by rw [e]; rfl⟩
    · obtain ⟨m, e⟩ := C73_refused q [] h0 hp
      simp only [e, Option.bind_some]
      exact ⟨_, rfl⟩
  · unfold takeQuery
    rw [if_pos (by unfold maxQuery; omega)]
    exact ⟨_, rfl⟩

theorem query_ne {ps : Params} {q : Str} (h : Query ps q) : q ≠ [] ∧ ps ≠ [] := by
  cases h <;> simp

/-- What is done for a query with encoded pairs. -/
theorem process_pairs (hs : cl.isserver = true) {ps : Params} {q : Str} (h : Query ps q) (h0 : ∀ p ∈ ps, 0#8 ∉ p.1 ∧ 0#8 ∉ p.2) (hn : ps.length ≤ 100) (hl : q.length ≤ 2000) :
    processQuery conf cl there atol q = some (process conf cl there atol ps) := by
  obtain ⟨hq, hp⟩ := query_ne h
  obtain ⟨m, l, e, hf⟩ := C73_roundtrip ps q [] h h0 hn
  unfold processQuery
  rw [if_neg hq, take_server cl hs hl, Option.bind_some]
  simp only [e, Option.bind_some]
  rw [if_neg (fun hl => by subst hl; cases hf; exact hp rfl), paramsOf_of hf]
  rfl

/-- C82 (GET): what is done for a GET with these parameters in percent encoding is what the rights and the databases make of exactly these parameters, whatever the thread served before. -/
theorem C82_get_partial (hs : cl.isserver = true) {ps : Params} {maxl : Nat} {path q version : Str} (hp : Http.Word path) (hp' : 63#8 ∉ path) (hq : Http.Word q) (hv : OneLine version)
    (hl : (firstLine (asc "GET") (path ++ 63#8 :: q) version).length < maxl) (h : Query ps q) (h0 : ∀ p ∈ ps, 0#8 ∉ p.1 ∧ 0#8 ∉ p.2) (hn : ps.length ≤ 100) (hlen : q.length ≤ 2000)
    (bufp junk rest : List Byte) (t : Th) :
    (serve conf cl there atol maxl bufp junk t (firstLine (asc "GET") (path ++ 63#8 :: q) version ++ rest)).2 = some (process conf cl there atol ps) := by
  unfold serve
  have e := C80_get_partial hp hp' hq hv hl bufp junk rest t
  rw [if_neg (query_ne h).1] at e
  simp only [e]
  exact process_pairs conf cl there atol hs h h0 hn hlen

/-- C82 (POST): the same for the data of a POST. -/
theorem C82_post_partial (hs : cl.isserver = true) {ps : Params} {maxl : Nat} {uri version ds body : Str} {before after : List Str} {junk : List Byte} (hu : Http.Word uri) (hv : OneLine version)
    (hl : (firstLine (asc "POST") uri version).length < maxl)
    (hb : ∀ l ∈ before, Other l ∧ l.length + 1 < maxl) (ha : ∀ l ∈ after, Other l ∧ l.length + 1 < maxl) (hn : before.length + after.length + 2 ≤ 1000)
    (hd : Attach.Digits ds) (hll : (lengthLine ds).length < maxl) (hlen : Attach.value ds = body.length) (hlt : body.length ≤ 2000) (hz : 0#8 ∉ body)
    (hj : junk.head? = some 0#8) (h : Query ps body) (h0 : ∀ p ∈ ps, 0#8 ∉ p.1 ∧ 0#8 ∉ p.2) (hps : ps.length ≤ 100) (bufp rest : List Byte) (t : Th) :
    (serve conf cl there atol maxl bufp junk t
      (firstLine (asc "POST") uri version ++ (lines before ++ (lengthLine ds ++ (lines after ++ (asc "\r\n" ++ (body ++ rest))))))).2 = some (process conf cl there atol ps) := by
  unfold serve
  have e := C80_post_partial hu hv hl hb ha hn hd hll hlen (query_ne h).1 (by omega) hz hj bufp rest t
  simp only [e]
  exact process_pairs conf cl there atol hs h h0 hps hlt

theorem cstr_free {m : List Byte} {i : Nat} {s : Str} (h : cstr m i = some s) : 0#8 ∉ s := by
  unfold cstr at h
  by_cases e : 0#8 ∈ m.drop i
  · rw [if_pos e] at h
    cases h
    intro hm
    have := List.mem_takeWhile_imp hm
    simp at this
  · rw [if_neg e] at h; cases h

theorem useQuery_free {t : Th} {q : Str} (h : (useQuery t).2 = .query q) : 0#8 ∉ q := by
  unfold useQuery at h
  split at h <;> try (cases h)
  split at h
  · cases h
  · rename_i q' e
    by_cases hq : q' = []
    · rw [if_pos hq] at h; cases h
    · rw [if_neg hq] at h
      cases h
      exact cstr_free e

/-- The query that is processed has no 0 byte. -/
theorem request_free {maxl : Nat} {bufp junk : List Byte} {t : Th} {inp : List Byte} {q : Str} (h : (request maxl bufp junk t inp).2 = .query q) : 0#8 ∉ q := by
  unfold request at h
  simp only at h
  split at h
  · cases h
  split at h
  · cases h
  split at h
  · cases h
  split at h
  · split at h
    · split at h
      · cases h
      · exact useQuery_free h
    · split at h
      · cases h
      · cases h
      · split at h
        · cases h
        · rename_i q' e
          split at h
          · cases h
          · cases h
            exact cstr_free e
  · cases h

theorem serve_from (hs : cl.isserver = true) {maxl : Nat} {bufp junk : List Byte} {t : Th} {inp : List Byte} {as : List Action} {a : Action}
    (h : (serve conf cl there atol maxl bufp junk t inp).2 = some as) (ha : a ∈ as) :
    ∃ q, (request maxl bufp junk t inp).2 = .query q ∧ 0#8 ∉ q ∧ processQuery conf cl there atol q = some as := by
  unfold serve at h
  simp only at h
  split at h
  · rename_i q e
    exact ⟨q, e, request_free e, h⟩
  · cases h
  · cases h; cases ha

/-- C82 (addresses): if addresses are set for all rights and the client's is not among them nothing is done, whatever bytes it sends and whatever the thread served before. -/
theorem C82_outside (hs : cl.isserver = true) (h1 : conf.adminIps ≠ []) (h2 : conf.writeIps ≠ []) (h3 : conf.readIps ≠ [])
    (hn : ∀ s t, cl.ip = some (s ++ t) → s ∉ conf.adminIps ∧ s ∉ conf.writeIps ∧ s ∉ conf.readIps)
    {maxl : Nat} {bufp junk : List Byte} {t : Th} {inp : List Byte} {as : List Action} (h : (serve conf cl there atol maxl bufp junk t inp).2 = some as) : as = [] := by
  cases as with
  | nil => rfl
  | cons a as =>
    obtain ⟨q, _, h0, hp⟩ := serve_from conf cl there atol hs h List.mem_cons_self
    rcases process_from conf cl there atol h0 hp with e | ⟨_, _, _, ps, _, _, _, e⟩
    · exact e
    · rw [e]; exact C72_outside conf cl there atol ps (Or.inl hs) h1 h2 h3 hn

/-- C82 (tokens): if tokens are set for all rights, something is done only if the query that is processed has a parameter that stands for `token`, whose value stands for one of them. -/
theorem C82_token (hs : cl.isserver = true) (h1 : conf.adminTokens ≠ []) (h2 : conf.writeTokens ≠ []) (h3 : conf.readTokens ≠ [])
    {maxl : Nat} {bufp junk : List Byte} {t : Th} {inp : List Byte} {as : List Action} (h : (serve conf cl there atol maxl bufp junk t inp).2 = some as) (hne : as ≠ []) :
    ∃ q raw p v, (request maxl bufp junk t inp).2 = .query q ∧ Pairs q raw ∧ (p, v) ∈ raw ∧
      (NoLower p → NoLower v → ∃ dp dv tok, Dec Hex p dp ∧ Cut dp (asc "token") ∧ Dec Hex v dv ∧ Cut dv tok ∧ (tok ∈ conf.adminTokens ∨ tok ∈ conf.writeTokens ∨ tok ∈ conf.readTokens)) := by
  obtain ⟨a, ha⟩ := List.exists_mem_of_ne_nil _ hne
  obtain ⟨q, hq, h0, hp⟩ := serve_from conf cl there atol hs h ha
  rcases process_from conf cl there atol h0 hp with e | ⟨raw, m, l, ps, g1, g2, g3, e⟩
  · exact absurd e hne
  · have : ∃ tok, (asc "token", tok) ∈ ps ∧ (tok ∈ conf.adminTokens ∨ tok ∈ conf.writeTokens ∨ tok ∈ conf.readTokens) := by
      by_contra hc
      refine hne (e.trans (C72_locked conf cl there atol ps (Or.inl hs) h1 h2 h3 ?_))
      intro tok ht
      refine ⟨fun x => hc ⟨tok, ht, Or.inl x⟩, fun x => hc ⟨tok, ht, Or.inr (Or.inl x)⟩, fun x => hc ⟨tok, ht, Or.inr (Or.inr x)⟩⟩
    obtain ⟨tok, ht, hin⟩ := this
    have key : ∃ r ∈ raw, ∃ x : Nat × Nat, Reads m x.1 r.1 ∧ Reads m x.2 r.2 ∧ cstr m x.1 = some (asc "token") ∧ cstr m x.2 = some tok := by
      clear e hp
      revert ps
      clear g1
      induction g2 with
      | nil => intro ps g3 ht; cases g3; cases ht
      | cons hx _ ih =>
        intro ps g3 ht
        cases g3 with
        | cons hy g3 =>
          rcases List.mem_cons.1 ht with e | e
          · subst e
            exact ⟨_, List.mem_cons_self, _, hx.1, hx.2, hy.1, hy.2⟩
          · obtain ⟨r, hr, k⟩ := ih _ g3 e
            exact ⟨r, List.mem_cons_of_mem _ hr, k⟩
    obtain ⟨⟨p, v⟩, hr, x, ⟨d, w, k1, k2, k3⟩, ⟨d', w', k1', k2', k3'⟩, k4, k5⟩ := key
    refine ⟨q, raw, p, v, hq, g1, hr, fun n1 n2 => ⟨d, d', tok, dec_hex k1 n1, ?_, dec_hex k1' n2, ?_, hin⟩⟩
    · rw [k4] at k3; cases k3; exact k2
    · rw [k5] at k3'; cases k3'; exact k2'

end WG.Serve.Wire
