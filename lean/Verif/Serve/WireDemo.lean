import Verif.Serve.WireProps
import Verif.Serve.HttpDemo

/-!
# The server: from the bytes of a client to what is done, cases and counterexamples (C82)
-/
namespace WG.Serve.Wire
open WG.Csv (Str Byte asc)
open WG.Serve WG.Serve.Http WG.Serve.Spec

/-- Addresses that begin with 10. may do everything, with the token of the right. -/
def conf : Conf := ⟨[], [], [], [asc "7", asc "1000"], [asc "10."], [asc "10."], [asc "10."], [asc "root"], [asc "w"], [asc "r"]⟩

def inside : Client := ⟨true, false, some (asc "10.0.0.1")⟩
def outside : Client := ⟨true, false, some (asc "11.0.0.1")⟩

/-- All databases are there, and all numbers are 7. -/
def act (cl : Client) (t : Th) (inp : String) : Th × Option (List Action) := serve conf cl (fun _ => true) (fun _ => 7) 100 [0#8] (List.replicate 10 0#8) t (asc inp)

/-- Requests that are served, and some that are not: no token, the token of another right, an address without rights, a database that is not open. -/
theorem demo_wire :
    (act inside new "GET /d?op=count&db=7&token=r HTTP/1.0\r\n\r\n").2 = some [.look (asc "7")] ∧
    (act inside new "GET /d?op=delete&db=7&token=w HTTP/1.0\r\n\r\n").2 = some [.change (asc "7")] ∧
    (act inside new "POST /d HTTP/1.0\r\nContent-Length: 23\r\n\r\nop=drop&db=7&token=root").2 = some [.drop (asc "7")] ∧
    (act inside new "GET /d?op=count&db=7 HTTP/1.0\r\n\r\n").2 = some [] ∧
    (act inside new "GET /d?op=delete&db=7&token=r HTTP/1.0\r\n\r\n").2 = some [] ∧
    (act outside new "GET /d?op=count&db=7&token=r HTTP/1.0\r\n\r\n").2 = some [] ∧
    (act inside new "GET /d?op=count&db=8&token=r HTTP/1.0\r\n\r\n").2 = some [] := by decide +kernel

/-- The hypotheses of `C82_get_partial` are met by the first of them. -/
theorem demo_wire_met (t : Th) (rest : List Byte) :
    (serve conf inside (fun _ => true) (fun _ => 7) 100 [] [] t (asc "GET /d?op=count&token=%72 HTTP/1.0\r\n" ++ rest)).2 = some [.look (asc "1000")] := by
  have plain : ∀ {s : Str}, (∀ c ∈ s, c ≠ 37#8 ∧ c ≠ 38#8 ∧ c ≠ 61#8) → Enc s s := by
    intro s
    induction s with
    | nil => intro _; exact .nil
    | cons c s ih => intro h; exact .plain c s s (h c (by simp)).1 (h c (by simp)).2.1 (h c (by simp)).2.2 (ih (fun x hx => h x (by simp [hx])))
  have hq : Query [(asc "op", asc "count"), (asc "token", asc "r")] (asc "op=count&token=%72") :=
    .cons (asc "op") (asc "count") (asc "op") (asc "count") _ _ (plain (by decide)) (plain (by decide))
      (.last (asc "token") (asc "r") (asc "token") (asc "%72") (plain (by decide)) (.pct 0x72#8 0x37#8 0x32#8 7#8 2#8 [] [] (.digit 7 (by decide)) (.digit 2 (by decide)) (by decide) (by decide) (by decide) .nil) (by decide))
  have h := C82_get_partial conf inside (fun _ => true) (fun _ => 7) rfl (maxl := 100) (path := asc "/d") (version := asc "HTTP/1.0\r") (by unfold Http.Word; decide +kernel) (by decide +kernel)
    (by unfold Http.Word; decide +kernel) (by unfold OneLine; decide +kernel) (by decide +kernel) hq (by decide +kernel) (by decide) (by decide +kernel) [] [] rest t
  have e : process conf inside (fun _ => true) (fun _ => 7) [(asc "op", asc "count"), (asc "token", asc "r")] = [.look (asc "1000")] := by decide +kernel
  rw [e] at h
  exact h

/-- A client that sends nothing, and so no token: what another client sent, who asked for nothing that is done, is decoded a second time and done. -/
theorem C82_silent_counterexample :
    let first := act inside new "GET /?op%3Dcount%26token%3Dr=1 HTTP/1.0\r\n\r\n"
    first.2 = some [] ∧ (act inside first.1 "").2 = some [.look (asc "1000")] ∧ (act inside new "").2 = some [] := by decide +kernel

end WG.Serve.Wire
