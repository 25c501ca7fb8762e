import Verif.Serve.ConfDemo
import Verif.Serve.AuthProps

/-!
# The server: from the text of the configuration file to the rights of clients
-/
namespace WG.Serve
open WG.Csv (Str Byte asc)
open Spec

/-- C77 with C72: a server that was started with a configuration file touches a database only if the lines of the file give the client the right for it. -/
theorem C77_rights_partial (junk : Byte) (ls : List Line) (hls : ∀ l ∈ ls, l.Ok) (h0 : ls ≠ []) (hlen : (fileText ls).length < 512000) {n : Nat} {c : Lists}
    (hc : loadConf junk (fun _ => []) (fileText ls) = .code n c)
    (cl : Client) (there : Str → Bool) (atol : Str → Int) (ps : Params) (a : Action) (h : a ∈ process (toConf c) cl there atol ps) :
    (∃ t, Token ps t ∧ Granted (said (pairs none ls)) cl (needs a) t) ∧ Open (said (pairs none ls)) (base a) := by
  have hf : fileText ls ≠ [] := by
    obtain ⟨l, r, rfl⟩ := List.exists_cons_of_ne_nil h0
    simp [fileText]
  have key := C77_partial junk (fun _ => []) ls hls none (by intro l e; cases e) (file := fileText ls) (by simp) hf hlen
  simp only [Option.toList_none, List.append_nil, List.nil_append] at key
  have e : c = valuesOf (pairs none ls) := by
    by_cases hk : ∀ p ∈ pairs none ls, Known p.1
    · obtain ⟨c', e1, e2⟩ := key.1 hk
      rw [hc] at e1
      injection e1 with _ e1
      subst e1
      exact funext e2
    · have : ∃ p ∈ pairs none ls, ¬ Known p.1 := by
        apply Classical.byContradiction
        intro hn
        exact hk (fun p hp => Classical.byContradiction fun hh => hn ⟨p, hp, hh⟩)
      rw [hc] at key
      have := key.2 this
      cases this
  subst e
  have := C72_actions _ cl there atol ps a h
  exact ⟨this.1, this.2.1⟩

/-- The lines of `demoLines` say that the tokens for reading are `a` and `b`: a client with `b` may read. -/
theorem demo_conf_rights (junk : Byte) : ∃ c, loadConf junk (fun _ => []) (fileText demoLines) = .code 0 c ∧
    Action.look (asc "1000") ∈ process (toConf c) ⟨true, false, some (asc "10.0.0.1")⟩ (fun _ => true) (fun _ => 0) [(asc "op", asc "search"), (asc "token", asc "b")] := by
  obtain ⟨c, h1, h2⟩ := (C77_partial junk (fun _ => []) demoLines demoLines_ok none (by intro l e; cases e) (file := fileText demoLines) (by simp) (by decide) (by decide +kernel)).1 (fun p hp => (known_iff _).1 ((by decide +kernel : ∀ p ∈ pairs none (demoLines ++ (none : Option Line).toList), p.1 ∈ confKeys) p hp))
  have e : c = valuesOf (pairs none (demoLines ++ (none : Option Line).toList)) := funext h2
  subst e
  exact ⟨_, h1, by decide +kernel⟩

end WG.Serve
