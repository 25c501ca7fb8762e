import Verif.Serve.AuthProps

/-!
# The server: who may do what, examples
-/
namespace WG.Serve
open WG.Csv (Str asc)
open Spec

/-- A configuration: two databases, addresses for the rights to write, tokens. -/
def exConf : Conf where
  defaultDb := [asc "7"]
  defaultSize := []
  maxSize := [asc "5000000"]
  dbases := [asc "7", asc "8"]
  adminIps := [asc "127.0.0.1"]
  writeIps := [asc "10.0."]
  readIps := [asc "10."]
  adminTokens := [asc "root"]
  writeTokens := [asc "pen"]
  readTokens := [asc "eye"]

def exClient : Client := ⟨true, false, some (asc "10.0.3.4")⟩

/-- Numbers without sign. -/
def exAtol (s : Str) : Int := s.foldl (fun n b => 10 * n + ((b.toNat : Int) - 48)) 0

/-- Reading and writing with the tokens; not with the wrong token, and not another database; nobody at this address may delete a database. -/
example : process exConf exClient (fun _ => true) exAtol [(asc "op", asc "search"), (asc "token", asc "eye")] = [.look (asc "7")] ∧
    process exConf exClient (fun _ => true) exAtol [(asc "db", asc "8"), (asc "op", asc "delete"), (asc "token", asc "pen")] = [.change (asc "8")] ∧
    process exConf exClient (fun _ => true) exAtol [(asc "op", asc "delete"), (asc "token", asc "eye")] = [] ∧
    process exConf exClient (fun _ => true) exAtol [(asc "op", asc "search")] = [] ∧
    process exConf exClient (fun _ => true) exAtol [(asc "db", asc "9"), (asc "op", asc "search"), (asc "token", asc "root")] = [] ∧
    process exConf exClient (fun _ => true) exAtol [(asc "op", asc "drop"), (asc "token", asc "root")] = [] := by decide +kernel

/-- An insertion creates the database. -/
example : process exConf ⟨true, false, some (asc "127.0.0.1")⟩ (fun _ => false) exAtol
      [(asc "op", asc "insert"), (asc "rec", asc "[1]"), (asc "token", asc "root")] = [] ∧
    process { exConf with maxSize := [] } ⟨true, false, some (asc "127.0.0.1")⟩ (fun _ => false) exAtol
      [(asc "op", asc "insert"), (asc "rec", asc "[1]"), (asc "token", asc "root")] = [.create (asc "7") 10000000, .insert (asc "7")] := by decide +kernel

/-- The client of the example has the right to write. -/
theorem exGranted : Granted exConf exClient .write (some (asc "pen")) :=
  Or.inr ⟨⟨.write, by decide, Or.inr ⟨asc "10.0.", asc "3.4", by decide, by decide, by decide⟩⟩, ⟨.write, by decide, Or.inr ⟨_, rfl, by decide, by decide⟩⟩⟩

/-- C72_served holds of a request with two databases, of which the first counts. -/
example : process exConf exClient (fun _ => true) exAtol
    ([(asc "db", asc "8")] ++ (asc "op", asc "update") :: [(asc "db", asc "7"), (asc "fld", asc "1,x"), (asc "token", asc "pen")]) = [.change (asc "8")] :=
  C72_served exConf exClient (fun _ => true) exAtol _ _ (asc "update") (asc "8") true (some (asc "pen")) (by decide) (by decide) (by unfold Understood; decide)
    (by decide +kernel) (by decide) (.last [(asc "db", asc "8"), (asc "op", asc "update"), (asc "db", asc "7"), (asc "fld", asc "1,x")] _ [] (by intro p hp; cases hp)) exGranted (Or.inr (by decide)) rfl

example : process exConf exClient (fun _ => true) exAtol
    ([] ++ (asc "op", asc "insert") :: [(asc "rec", asc "[1]"), (asc "token", asc "pen")]) = [.insert (asc "7")] :=
  C72_insert_served exConf exClient (fun _ => true) exAtol _ _ (asc "7") (some (asc "pen")) (asc "[1]") (by decide) (by unfold Understood; decide)
    (by decide +kernel) (by decide) (by decide +kernel) (by decide) (.last [(asc "op", asc "insert"), (asc "rec", asc "[1]")] _ [] (by intro p hp; cases hp)) exGranted (Or.inr (by decide)) rfl

theorem exAdmin : Granted exConf ⟨true, false, some (asc "127.0.0.1")⟩ .admin (some (asc "root")) :=
  Or.inr ⟨⟨.admin, by decide, Or.inr ⟨asc "127.0.0.1", [], by decide, by decide, by decide⟩⟩, ⟨.admin, by decide, Or.inr ⟨_, rfl, by decide, by decide⟩⟩⟩

example : process exConf ⟨true, false, some (asc "127.0.0.1")⟩ (fun _ => true) exAtol [(asc "db", asc "8"), (asc "op", asc "drop"), (asc "token", asc "root")] = [.drop (asc "8")] :=
  C72_drop_served _ _ _ exAtol _ _ (by decide +kernel) (by decide) exAdmin (Or.inr (by decide)) rfl

example : process exConf ⟨true, false, some (asc "127.0.0.1")⟩ (fun _ => true) exAtol
    [(asc "db", asc "8"), (asc "op", asc "create"), (asc "size", asc "2000000"), (asc "token", asc "root")] = [.create (asc "8") (exAtol (asc "2000000"))] :=
  C72_create_served _ _ _ exAtol _ _ _ (by decide +kernel) (by decide) (by decide +kernel) (by decide +kernel) exAdmin (Or.inr (by decide))

/-- C72_locked: a request without a token. -/
example : process exConf exClient (fun _ => true) exAtol [(asc "op", asc "search"), (asc "token", asc "x")] = [] :=
  C72_locked _ _ _ _ _ (Or.inl rfl) (by decide) (by decide) (by decide) (by
    intro t h
    simp only [List.mem_cons, List.not_mem_nil, or_false, Prod.mk.injEq] at h
    rcases h with h | h
    · exact absurd h.1 (by decide)
    · rw [h.2]; decide)

/-- C72_outside: a client without an address. -/
example : process exConf ⟨true, false, none⟩ (fun _ => true) exAtol [(asc "op", asc "search"), (asc "token", asc "eye")] = [] :=
  C72_outside _ _ _ _ _ (Or.inl rfl) (by decide) (by decide) (by decide) (fun s t h => by cases h)

end WG.Serve
