import Verif.Serve.Auth

/-!
# The server: who may do what, the rules

As in Server/conf_example.txt lines 45-90: a list that is not given sets no limit; addresses are given by prefixes, tokens and databases by themselves; a right holds for the weaker ones.
-/
namespace WG.Serve.Spec
open WG.Csv (Str asc)
open WG.Serve (Conf Client Level Action Params)

/-- The rights that include the right. -/
def Level.covers : Level → List Level
  | .read => [.admin, .write, .read]
  | .write => [.admin, .write]
  | .admin => [.admin]

/-- The addresses of the right. -/
def ips (c : Conf) : Level → List Str
  | .admin => c.adminIps
  | .write => c.writeIps
  | .read => c.readIps

/-- The tokens of the right. -/
def tokens (c : Conf) : Level → List Str
  | .admin => c.adminTokens
  | .write => c.writeTokens
  | .read => c.readTokens

/-- The address is in the list, which has the first parts of addresses. -/
def IpIn (list : List Str) (ip : Option Str) : Prop :=
  list = [] ∨ ∃ s t, ip = some (s ++ t) ∧ s ++ t ≠ [] ∧ s ∈ list

/-- The name is in the list. -/
def NameIn (list : List Str) (name : Option Str) : Prop := list = [] ∨ ∃ s, name = some s ∧ s ≠ [] ∧ s ∈ list

/-- The client has the right: from the command line always. -/
def Granted (c : Conf) (cl : Client) (l : Level) (token : Option Str) : Prop :=
  (cl.isserver = false ∧ cl.iscgi = false) ∨
    ((∃ l' ∈ Level.covers l, IpIn (ips c l') cl.ip) ∧ ∃ l' ∈ Level.covers l, NameIn (tokens c l') token)

/-- The database may be used. -/
def Open (c : Conf) (db : Str) : Prop := c.dbases = [] ∨ db ∈ c.dbases

/-- The right an action needs. -/
def needs : Action → Level
  | .look _ => .read
  | .change _ => .write
  | .insert _ => .write
  | .create _ _ => .admin
  | .drop _ => .admin

/-- The database of the action. -/
def base : Action → Str
  | .look d => d
  | .change d => d
  | .insert d => d
  | .create d _ => d
  | .drop d => d

/-- The token of the request: the last that is given. -/
inductive Token : Params → Option Str → Prop
  | none (ps) : (∀ p ∈ ps, p.1 ≠ asc "token") → Token ps none
  | last (as t bs) : (∀ p ∈ bs, p.1 ≠ asc "token") → Token (as ++ (asc "token", t) :: bs) (some t)

end WG.Serve.Spec
