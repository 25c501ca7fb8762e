import Verif.Serve.WireProps
import Verif.Serve.ConfAuth
import Verif.Serve.Search

/-!
# The server: the ways to call the program

main and get_cgi_query of Server/dserve.c: as a server, by a web server (CGI), from the command line.
-/
namespace WG.Serve.Wire
open WG.Csv (Str Byte asc)
open WG.Serve WG.Serve.Http

/-- What the program finds when it is called: the environment (REQUEST_METHOD, REMOTE_ADDR, QUERY_STRING, CONTENT_LENGTH), the arguments, the standard input, and the bytes that happen to be
behind the data in the block that is allocated for them. -/
structure Call where
  method : Option Str
  addr : Option Str
  query : Option Str
  length : Option Str
  args : List Str
  input : List Byte
  junk : List Byte

/-- get_cgi_query, Server/dserve.c lines 333-367; the outer `none`: no byte 0 behind the data; the inner: NULL. Simplification: the content type is left out (process_query sets it to 0, line
423), malloc does not fail. -/
def cgiQuery (c : Call) (m : Str) : Option (Option Str) :=
  if m = asc "GET" then some c.query
  else if m = asc "POST" then match c.length with
    | none => some none
    | some s =>
      let len := atoi s
      if len ≤ 0 ∨ maxMalloc ≤ len then some none
      else
        let data := c.input.take len.toNat
        if data = [] then some none else (cstr (data ++ c.junk) 0).map some
  else some none

/-- What becomes of the call: the help text, an exit because of the configuration file, a server, what is done to the databases, undefined behaviour. -/
inductive Run
  | help | exit | server (port : Int) (conf : Conf) | did (as : List Action) | bad

/-- load_configuration as main calls it, Server/dserve.c lines 265-268 and 300-303, Server/dserve_util.c lines 663-671: without a path there are no lists, a file that can not be opened ends the
program. The return code is not used. `files`: the texts of the files that can be opened. -/
def withConf (files : Str → Option Str) (junk : Byte) (path : Option Str) (k : Conf → Run) : Run := match path with
  | none => k (toConf fun _ => [])
  | some p => match files p with
    | none => .exit
    | some f => match loadConf junk (fun _ => []) f with
      | .bad => .bad
      | .exit => .exit
      | .code _ l => k (toConf l)

/-- The call of process_query in main, Server/dserve.c line 321, and lines 436-440. -/
def once (conf : Conf) (cl : Client) (there : Str → Bool) (atol : Str → Int) : Option Str → Run
  | none => .did []
  | some q => match processQuery conf cl there atol q with
    | none => .bad
    | some as => .did as

/-- main, Server/dserve.c lines 210-325, compiled with SERVEROPTION and without DEFAULT_PORT; `compiled` is CONF_FILE, if it is defined. -/
def run (compiled : Option Str) (files : Str → Option Str) (junk : Byte) (there : Str → Bool) (atol : Str → Int) (c : Call) : Run := match c.method with
  | some m => withConf files junk compiled fun conf => match cgiQuery c m with
    | none => .bad
    | some q => once conf ⟨false, true, c.addr⟩ there atol q
  | none => match c.args with
    | [] => .help
    | q :: r =>
      if q = asc "--help" then .help
      else if atoi q ≠ 0 then withConf files junk (r.head?.or compiled) (.server (atoi q))
      else withConf files junk r.head? fun conf => once conf ⟨false, false, none⟩ there atol (some q)

end WG.Serve.Wire
