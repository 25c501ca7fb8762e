import Verif.Serve.HttpProps
import Verif.Serve.AuthProps
import Verif.Serve.UrlProps

/-!
# The server: from the bytes of a client to what is done

The parts `Http` (reading a request), `Url` (reading a query) and `Auth` (rights and databases) put together.
-/
namespace WG.Serve.Wire
open WG.Csv (Str Byte asc)
open WG.Serve WG.Serve.Http

/-- `params` and `values` in process_query, Server/dserve.c lines 412-413, as the strings at the positions that parse_query found (Server/dserve_util.c lines 119-120). `none`: a string does
not end in the buffer. -/
def paramsOf (m : List Byte) : List (Nat × Nat) → Option Params
  | [] => some []
  | x :: l => (cstr m x.1).bind fun a => (cstr m x.2).bind fun b => (paramsOf m l).map ((a, b) :: ·)

/-- process_query, Server/dserve.c lines 404-529: what is done for a query. `none` is an access outside of a buffer. Simplification: what follows the query in the buffer of a thread is left out
(it is not touched, `C73_safe`). -/
def processQuery (conf : Conf) (cl : Client) (there : Str → Bool) (atol : Str → Int) (q : Str) : Option (List Action) :=
  if q = [] then some []
  else (takeQuery cl.isserver q).bind fun
    | none => some []
    | some m => (parseQuery m q.length).bind fun r => match r.2 with
      | none => some []
      | some l => if l = [] then some [] else (paramsOf r.1 l).map (process conf cl there atol)

/-- handle_http for one connection, Server/dserve_net.c lines 455-513: the variables of the thread afterwards and what is done; `none` is undefined behaviour. -/
def serve (conf : Conf) (cl : Client) (there : Str → Bool) (atol : Str → Int) (maxl : Nat) (bufp junk : List Byte) (t : Th) (inp : List Byte) : Th × Option (List Action) :=
  let r := request maxl bufp junk t inp
  (r.1, match r.2 with
    | .query q => processQuery conf cl there atol q
    | .bad => none
    | _ => some [])

end WG.Serve.Wire
