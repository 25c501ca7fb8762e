import Verif.Serve.Main
import Verif.Serve.ConfDemo

/-!
# The server: the ways to call the program, theorems (C83)
-/
namespace WG.Serve.Wire
open WG.Csv (Str Byte asc)
open WG.Serve WG.Serve.Http WG.Serve.Spec

variable (files : Str → Option Str) (junk : Byte) (there : Str → Bool) (atol : Str → Int)

theorem process_copied (conf : Conf) (cl : Client) {ps : Params} {q : Str} (h : Query ps q) (h0 : ∀ p ∈ ps, 0#8 ∉ p.1 ∧ 0#8 ∉ p.2) (hn : ps.length ≤ 100) (hl : q.length < 2000) :
    processQuery conf cl there atol q = some (process conf cl there atol ps) := by
  obtain ⟨hq, hp⟩ := query_ne h
  unfold processQuery
  rw [if_neg hq]
  rcases take_shape cl.isserver q with e | e | ⟨rest, e⟩
  · exfalso
    unfold takeQuery maxQuery at e
    rw [if_neg (by omega)] at e
    split at e
    · cases e
    · rw [if_pos (by omega)] at e; cases e
  · exfalso
    unfold takeQuery maxQuery at e
    rw [if_neg (by omega)] at e
    split at e
    · cases e
    · rw [if_pos (by omega)] at e; cases e
  · obtain ⟨m, l, e', hf⟩ := C73_roundtrip ps q rest h h0 hn
    rw [e, Option.bind_some]
    simp only [e', Option.bind_some]
    rw [if_neg (fun hl => by subst hl; cases hf; exact hp rfl), paramsOf_of hf]
    rfl

/-- C83 (file): if a file of configuration is asked for and can not be opened, nothing is done and no server runs. -/
theorem C83_missing {p : Str} (hp : files p = none) :
    (∀ c : Call, c.method.isSome → run (some p) files junk there atol c = .exit) ∧
    (∀ compiled q r, (c : Call) → c.method = none → c.args = q :: p :: r → q ≠ asc "--help" → run compiled files junk there atol c = .exit) := by
  constructor
  · intro c hm
    obtain ⟨m, hm⟩ := Option.isSome_iff_exists.1 hm
    unfold run withConf
    simp only [hm, hp]
  · intro compiled q r c hm ha hq
    unfold run withConf
    simp only [hm, ha, List.head?_cons, Option.some_or, hp]
    rw [if_neg hq, ite_self]

/-- C83 (file): the same if the file has a value for a key that is not known. -/
theorem C83_unknown {p : Str} {ls : List Line} (hls : ∀ l ∈ ls, l.Ok) (hp : files p = some (fileText ls)) (hlen : (fileText ls).length < 512000) (hu : ∃ x ∈ pairs none ls, ¬ Known x.1) :
    (∀ c : Call, c.method.isSome → run (some p) files junk there atol c = .exit) ∧
    (∀ compiled q r, (c : Call) → c.method = none → c.args = q :: p :: r → q ≠ asc "--help" → run compiled files junk there atol c = .exit) := by
  have h0 : fileText ls ≠ [] := by
    cases ls with
    | nil => obtain ⟨x, hx, _⟩ := hu; cases hx
    | cons a l => simp [fileText]
  have hl : loadConf junk (fun _ => []) (fileText ls) = .exit :=
    (C77_partial junk (fun _ => []) ls hls none (by intro l e; cases e) (by simp) h0 hlen).2 (by simpa using hu)
  constructor
  · intro c hm
    obtain ⟨m, hm⟩ := Option.isSome_iff_exists.1 hm
    unfold run withConf
    simp only [hm, hp, hl]
  · intro compiled q r c hm ha hq
    unfold run withConf
    simp only [hm, ha, List.head?_cons, Option.some_or, hp, hl]
    rw [if_neg hq, ite_self]

/-- C83 (server): the server runs with the configuration of the file, which is that of its lines, and the port given. -/
theorem C83_server_partial {p port : Str} {l : Lists} {n : Nat} {f : Str} (hf : files p = some f) (hl : loadConf junk (fun _ => []) f = .code n l) (hp : atoi port ≠ 0) (hh : port ≠ asc "--help")
    (compiled : Option Str) (r : List Str) (c : Call) (hm : c.method = none) (ha : c.args = port :: p :: r) :
    run compiled files junk there atol c = .server (atoi port) (toConf l) := by
  unfold run withConf
  simp only [hm, ha, List.head?_cons, Option.some_or, hf, hl]
  rw [if_neg hh, if_pos hp]

/-- C83 (CGI): what is done for a GET with these parameters in percent encoding is what the rights and the databases of the configuration compiled in make of exactly these parameters. -/
theorem C83_cgi_get_partial {p f : Str} {l : Lists} {n : Nat} (hf : files p = some f) (hl : loadConf junk (fun _ => []) f = .code n l) {ps : Params} {q : Str} (h : Query ps q)
    (h0 : ∀ p ∈ ps, 0#8 ∉ p.1 ∧ 0#8 ∉ p.2) (hn : ps.length ≤ 100) (hlen : q.length < 2000) (c : Call) (hm : c.method = some (asc "GET")) (hq : c.query = some q) :
    run (some p) files junk there atol c = .did (process (toConf l) ⟨false, true, c.addr⟩ there atol ps) := by
  unfold run withConf
  simp only [hm, hf, hl]
  unfold cgiQuery
  rw [if_pos rfl, hq]
  simp only [once, process_copied there atol (toConf l) ⟨false, true, c.addr⟩ h h0 hn hlen]

/-- C83 (command line): the same for a query on the command line, where all rights are given. -/
theorem C83_command_partial {ps : Params} {q : Str} (h : Query ps q) (h0 : ∀ p ∈ ps, 0#8 ∉ p.1 ∧ 0#8 ∉ p.2) (hn : ps.length ≤ 100) (hlen : q.length < 2000)
    (hp : atoi q = 0) (hh : q ≠ asc "--help") (compiled : Option Str) (c : Call) (hm : c.method = none) (ha : c.args = [q]) :
    run compiled files junk there atol c = .did (process (toConf fun _ => []) ⟨false, false, none⟩ there atol ps) := by
  unfold run withConf
  simp only [hm, ha, List.head?_nil]
  rw [if_neg hh, if_neg (by simp [hp])]
  simp only [once, process_copied there atol (toConf fun _ => []) ⟨false, false, none⟩ h h0 hn hlen]

theorem cgi_free {c : Call} {m q : Str} (hq : ∀ s, c.query = some s → 0#8 ∉ s) (h : cgiQuery c m = some (some q)) : 0#8 ∉ q := by
  unfold cgiQuery at h
  by_cases h1 : m = asc "GET"
  · rw [if_pos h1] at h
    exact hq q (Option.some.inj h)
  rw [if_neg h1] at h
  by_cases h2 : m = asc "POST"
  · rw [if_pos h2] at h
    split at h
    · cases h
    · simp only at h
      split at h
      · cases h
      · split at h
        · cases h
        · obtain ⟨s, hs, e⟩ := Option.map_eq_some_iff.1 h
          cases e
          exact cstr_free hs
  · rw [if_neg h2] at h; cases h

/-- C83 (rights): called by a web server, with a configuration compiled in, the program does something only if the address of the client and the token give the right to it, for a database that may
be used, whatever the method, the query and the data. -/
theorem C83_cgi_rights {p f : Str} {l : Lists} {n : Nat} (hf : files p = some f) (hl : loadConf junk (fun _ => []) f = .code n l) {c : Call} (hm : c.method.isSome)
    (hq : ∀ s, c.query = some s → 0#8 ∉ s) {as : List Action} (h : run (some p) files junk there atol c = .did as) {a : Action} (ha : a ∈ as) :
    ∃ t, Granted (toConf l) ⟨false, true, c.addr⟩ (needs a) t ∧ Open (toConf l) (base a) := by
  obtain ⟨m, hm⟩ := Option.isSome_iff_exists.1 hm
  unfold run withConf at h
  simp only [hm, hf, hl] at h
  split at h
  · cases h
  · rename_i q e
    cases q with
    | none => cases h; cases ha
    | some q =>
      unfold once at h
      simp only at h
      split at h
      · cases h
      · rename_i as' e'
        cases h
        rcases process_from (toConf l) ⟨false, true, c.addr⟩ there atol (cgi_free hq e) e' with e2 | ⟨_, _, _, ps, _, _, _, e2⟩
        · rw [e2] at ha; cases ha
        · rw [e2] at ha
          obtain ⟨⟨t, _, ht⟩, ho, _⟩ := C72_actions (toConf l) ⟨false, true, c.addr⟩ there atol ps a ha
          exact ⟨t, ht, ho⟩

/-! ## Cases and counterexamples -/

/-- A file of configuration at `c`, an empty one at `e`. -/
def disk (p : Str) : Option Str :=
  if p = asc "c" then some (asc "dbases = 7\nread_ips = 10.\nwrite_ips = 10.\nadmin_ips = 10.\nread_tokens = r\nwrite_tokens = w\nadmin_tokens = a\n") else if p = asc "e" then some [] else none

/-- What is done. -/
def Run.done : Run → Option (List Action)
  | .did as => some as
  | _ => none

/-- Whether the outcome is undefined. -/
def Run.isBad : Run → Bool
  | .bad => true
  | _ => false

def get (addr q : String) : Call := ⟨some (asc "GET"), some (asc addr), some (asc q), none, [], [], []⟩
def post (addr data : String) (junk : List Byte) : Call := ⟨some (asc "POST"), some (asc addr), none, some (Json.digits (asc data).length), [], asc data, junk⟩
def command (args : List String) : Call := ⟨none, none, none, none, args.map asc, [], []⟩

theorem demo_main :
    (run (some (asc "c")) disk 0#8 (fun _ => true) (fun _ => 7) (get "10.1" "db=7&op=count&token=r")).done = some [.look (asc "7")] ∧
    (run (some (asc "c")) disk 0#8 (fun _ => true) (fun _ => 7) (get "10.1" "db=7&op=delete&token=r")).done = some [] ∧
    (run (some (asc "c")) disk 0#8 (fun _ => true) (fun _ => 7) (get "11.1" "db=7&op=count&token=r")).done = some [] ∧
    (run (some (asc "c")) disk 0#8 (fun _ => true) (fun _ => 7) (post "10.1" "db=7&op=delete&token=w" [0#8])).done = some [.change (asc "7")] ∧
    (run none disk 0#8 (fun _ => true) (fun _ => 7) (command ["db=7&op=drop"])).done = some [.drop (asc "7")] ∧
    (match run none disk 0#8 (fun _ => true) (fun _ => 7) (command ["8080", "c"]) with | .server port conf => decide (port = 8080 ∧ conf.readTokens = [asc "r"]) | _ => false) = true ∧
    (match run none disk 0#8 (fun _ => true) (fun _ => 7) (command ["8080", "x"]) with | .exit => true | _ => false) = true := by
  refine ⟨?_, ?_, ?_, ?_, ?_, ?_, ?_⟩ <;> decide +kernel

/-- A case for `C83_unknown`: the file has a line for a key `tokens`. -/
theorem demo_unknown (junk : Byte) : run none (fun p => if p = asc "u" then some (fileText [.define (asc "tokens") [] [] (asc "a") []]) else none) junk (fun _ => true) (fun _ => 7)
    (command ["8080", "u"]) = .exit := by
  refine (C83_unknown _ junk _ _ (p := asc "u") (ls := [.define (asc "tokens") [] [] (asc "a") []]) ?_ (if_pos rfl) (by decide +kernel)
    ⟨(asc "tokens", asc "a"), by decide +kernel, fun h => absurd ((known_iff _).2 h) (by decide +kernel)⟩).2 none (asc "8080") [] _ rfl rfl (by decide)
  intro l hl
  simp only [List.mem_cons, List.not_mem_nil, or_false] at hl
  subst hl
  refine ⟨⟨116#8, asc "okens", by decide, by decide, by decide⟩, key_ascii _ (by decide), ?_, ?_, value_ascii _ (by decide), ⟨by decide, ?_⟩, fun e => absurd e (by decide)⟩
  · intro c hc; cases hc
  · intro c hc; cases hc
  · intro c r e; cases e

/-- An empty file of configuration is an error that is not heeded: the server runs, and gives every right on every database to everybody. -/
theorem C83_empty_counterexample (compiled : Option Str) :
    run compiled disk junk there atol (command ["8080", "e"]) = .server 8080 (toConf fun _ => []) ∧
      ∀ cl l t db, Granted (toConf fun _ => []) cl l t ∧ Open (toConf fun _ => []) db := by
  constructor
  · have h : atoi (asc "8080") = 8080 := by decide +kernel
    have := C83_server_partial disk junk there atol (p := asc "e") (port := asc "8080") (l := fun _ => []) (n := 3) (f := []) (by decide) rfl (by rw [h]; decide) (by decide) compiled [] (command ["8080", "e"]) rfl rfl
    rw [h] at this
    exact this
  · intro cl l t db
    refine ⟨Or.inr ⟨⟨l, ?_, Or.inl ?_⟩, ⟨l, ?_, Or.inl ?_⟩⟩, Or.inl rfl⟩ <;> cases l <;> first | rfl | simp [Level.covers]

/-- Called by a web server, a query of 2000 bytes is written past the end of the buffer. -/
theorem C83_long_counterexample (c : Call) (hm : c.method = some (asc "GET")) (hq : c.query = some (List.replicate 2000 97#8)) : run none files junk there atol c = .bad := by
  unfold run withConf
  simp only [hm]
  unfold cgiQuery
  rw [if_pos rfl, hq]
  simp only [once]
  unfold processQuery
  rw [if_neg (by simp), C73_length_counterexample]
  rfl

/-- The data of a POST gets no byte 0 at the end: what happens to follow becomes a part of the query, here of the token or of the database, or the block is left. -/
theorem C83_post_counterexample :
    (run (some (asc "c")) disk 0#8 (fun _ => true) (fun _ => 7) (post "10.1" "op=count&db=7&token=r" (asc "x" ++ [0#8]))).done = some [] ∧
    (run none disk 0#8 (fun _ => true) (fun _ => 7) (post "10.1" "op=drop&db=7" (asc "1" ++ [0#8]))).done = some [.drop (asc "71")] ∧
    (run none disk 0#8 (fun _ => true) (fun _ => 7) (post "10.1" "op=drop&db=7" (asc "1"))).isBad = true := by
  refine ⟨?_, ?_, ?_⟩ <;> decide +kernel

end WG.Serve.Wire
