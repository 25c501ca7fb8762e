import Verif.Csv.Model

/-!
# The server: who may do what

authorize and the operations of Server/dserve.c up to the first call that touches a database. Requests are given as the parameters and values that parse_query returns. Strings are lists of
bytes without the final 0; strncmp with 2000 as limit is comparison, as no query is longer.
-/
namespace WG.Serve
open WG.Csv (Str Byte asc)

/-- The lists of the configuration file, Server/dserve.h lines 360-373. Simplification: a list that is not in the file is empty (setup_globals, Server/dserve.c lines 364-402, does not set
`max_dbase_size.used`). -/
structure Conf where
  defaultDb : List Str
  defaultSize : List Str
  maxSize : List Str
  dbases : List Str
  adminIps : List Str
  writeIps : List Str
  readIps : List Str
  adminTokens : List Str
  writeTokens : List Str
  readTokens : List Str

/-- What authorize reads of the thread's data, Server/dserve.h lines 297-316. -/
structure Client where
  isserver : Bool
  iscgi : Bool
  ip : Option Str

/-- ADMIN_LEVEL, WRITE_LEVEL, READ_LEVEL, Server/dserve.h lines 252-254. -/
inductive Level
  | admin | write | read
deriving DecidableEq

/-- authorize_aux, Server/dserve_util.c lines 866-882. -/
def authorizeAux (str : Option Str) (lst : List Str) (eqflag : Bool) : Bool :=
  if lst = [] then true
  else match str with
    | none => false
    | some s => if s.length < 1 then false else lst.any fun l => if eqflag then l == s else l.isPrefixOf s

/-- authorize, Server/dserve_util.c lines 832-864. -/
def authorize (conf : Conf) (cl : Client) (level : Level) (database : Option Str) (token : Option Str) : Bool :=
  if !cl.isserver && !cl.iscgi then true
  else if database.isSome && !authorizeAux database conf.dbases true then false
  else match level with
    | .read =>
      if authorizeAux cl.ip conf.adminIps false || authorizeAux cl.ip conf.writeIps false || authorizeAux cl.ip conf.readIps false then
        authorizeAux token conf.adminTokens true || authorizeAux token conf.writeTokens true || authorizeAux token conf.readTokens true
      else false
    | .write =>
      if authorizeAux cl.ip conf.adminIps false || authorizeAux cl.ip conf.writeIps false then
        authorizeAux token conf.adminTokens true || authorizeAux token conf.writeTokens true
      else false
    | .admin => if authorizeAux cl.ip conf.adminIps false then authorizeAux token conf.adminTokens true else false

/-- A request: parameters with their values. -/
abbrev Params := List (Str × Str)

/-- handle_generic_param, Server/dserve.c lines 1142-1190: the new token, `none` for an error. -/
def genericParam (p : Str × Str) (token : Option Str) : Option (Option Str) :=
  let yes : List Str → Option (Option Str) := fun vs => if p.2 ∈ vs then some token else none
  if p.1 = asc "depth" then some token
  else if p.1 = asc "showid" then yes [asc "yes", asc "no"]
  else if p.1 = asc "format" then yes [asc "csv", asc "json"]
  else if p.1 = asc "escape" then yes [asc "no", asc "url", asc "json"]
  else if p.1 = asc "token" then some (some p.2)
  else if p.1 ∈ [asc "jsonp", asc "_", asc "db", asc "op"] then some token
  else none

/-- The loops over the parameters that are handled here or by handle_generic_param: search, Server/dserve.c lines 596-632 (`own`: the parameters that only search has), insert, lines
843-851. -/
def tokenLoop (own : List Str) : Params → Option Str → Option (Option Str)
  | [], token => some token
  | p :: ps, token => if p.1 ∈ own then tokenLoop own ps token else (genericParam p token).bind (tokenLoop own ps)

/-- Parameters of search, Server/dserve.c lines 597-627. -/
def searchOwn : List Str :=
  [asc "recids", asc "fld", asc "field", asc "value", asc "compare", asc "type", asc "from", asc "count"]

/-- What is done to which database: the records of the database are read (search, count), changed (update, delete), a record is inserted, the database is created with a size, or
deleted. -/
inductive Action
  | look (db : Str) | change (db : Str) | insert (db : Str) | create (db : Str) (size : Int) | drop (db : Str)
deriving DecidableEq

/-- DEFAULT_DATABASE, Server/dserve.h line 67, unless there is one in the configuration file: Server/dserve.c lines 462-466, 1270-1276, 1320-1327. -/
def defaultDb (conf : Conf) : Str := conf.defaultDb.headD (asc "1000")

/-- `dbases` in op_attach_database, Server/dserve.c lines 1330-1339, op_create_database, lines 1295-1303, and drop, lines 1065-1074. -/
def listed (conf : Conf) (db : Str) : Bool := if conf.dbases = [] then true else conf.dbases.any fun d => db == d

/-- op_attach_database, Server/dserve.c lines 1315-1351: `there` tells whether wg_attach_existing_database finds the database. -/
def attach (conf : Conf) (there : Str → Bool) (database : Option Str) : Option Str :=
  let db := database.getD (defaultDb conf)
  if listed conf db && there db then some db else none

/-- The size limit, Server/dserve.c lines 980-988 and 1285-1293. `atol`: of the C library. -/
def maxSize (conf : Conf) (atol : Str → Int) : Int := match conf.maxSize with
  | [] => 1000000000
  | s :: _ => atol s

/-- op_create_database, Server/dserve.c lines 1263-1308: the database and the size for wg_attach_database. -/
def opCreate (conf : Conf) (atol : Str → Int) (database : Option Str) (size : Int) : Option (Str × Int) :=
  let db := database.getD (defaultDb conf)
  let size := if size ≤ 0 then (match conf.defaultSize with | [] => 10000000 | s :: _ => atol s) else size
  if listed conf db && decide (0 < size) && decide (size ≤ maxSize conf atol) then some (db, size) else none

/-- search, Server/dserve.c lines 555-667, up to the attached database: `change` for update and delete. Simplification: the errors of handle_fld_param
(line 609) and of lines 650-660 are left out, so the model acts on every request on which the code acts. -/
def search (conf : Conf) (cl : Client) (there : Str → Bool) (db : Str) (ps : Params) (change : Bool) : Option Action :=
  (tokenLoop searchOwn ps none).bind fun token =>
    if authorize conf cl (if change then .write else .read) (some db) token then
      (attach conf there (some db)).map fun db => if change then .change db else .look db
    else none

/-- The last value of the parameter. -/
def lastOf (k : Str) (ps : Params) : Option Str := (ps.filter fun p => p.1 = k).getLast?.map Prod.snd

/-- insert, Server/dserve.c lines 819-886: if the database is not there it is created. -/
def insert (conf : Conf) (cl : Client) (there : Str → Bool) (atol : Str → Int) (db : Str) (ps : Params) : List Action :=
  match tokenLoop [asc "rec"] ps none with
  | none => []
  | some token =>
    if (lastOf (asc "rec") ps).getD [] = [] then []
    else if authorize conf cl .write (some db) token then
      match attach conf there (some db) with
      | some db => [.insert db]
      | none =>
        if authorize conf cl .admin (some db) token then
          match opCreate conf atol (some db) 0 with
          | some (d, n) => [.create d n, .insert d]
          | none => []
        else []
    else []

/-- The loop of create, Server/dserve.c lines 970-996: database, size and token; `none` for an error. `atoi`: of the C library. -/
def createLoop (conf : Conf) (atol : Str → Int) : Params → Option Str → Int → Option Str → Option (Option Str × Int × Option Str)
  | [], db, size, token => some (db, size, token)
  | p :: ps, db, size, token =>
    if p.1 = asc "db" then
      if p.2.length < 1 ∨ atol p.2 ≤ 0 then none else createLoop conf atol ps (some p.2) size token
    else if p.1 = asc "size" then
      if maxSize conf atol < atol p.2 then none else createLoop conf atol ps db (atol p.2) token
    else (genericParam p token).bind fun token => createLoop conf atol ps db size token

/-- create, Server/dserve.c lines 959-1015. -/
def create (conf : Conf) (cl : Client) (atol : Str → Int) (ps : Params) : Option Action :=
  (createLoop conf atol ps none 0 none).bind fun r =>
    if authorize conf cl .admin r.1 r.2.2 then (opCreate conf atol r.1 r.2.1).map fun x => .create x.1 x.2 else none

/-- The loop of drop, Server/dserve.c lines 1042-1053. -/
def dropLoop (atol : Str → Int) : Params → Str → Option Str → Option (Str × Option Str)
  | [], db, token => some (db, token)
  | p :: ps, db, token =>
    if p.1 = asc "db" then
      if p.2.length < 1 ∨ atol p.2 ≤ 0 then none else dropLoop atol ps p.2 token
    else (genericParam p token).bind fun token => dropLoop atol ps db token

/-- drop, Server/dserve.c lines 1031-1093. -/
def drop (conf : Conf) (cl : Client) (there : Str → Bool) (atol : Str → Int) (db : Str) (ps : Params) : Option Action :=
  (dropLoop atol ps db none).bind fun r =>
    if authorize conf cl .admin (some r.1) r.2 then
      if listed conf r.1 then (attach conf there (some r.1)).map .drop else none
    else none

/-- The database of the request, Server/dserve.c lines 462-479: the first that is given and not empty; `none` if it is not a number. -/
def findDb (conf : Conf) (atol : Str → Int) : Params → Option Str
  | [] => some (defaultDb conf)
  | p :: ps =>
    if p.1 = asc "db" ∧ p.2 ≠ [] then
      if atol p.2 = 0 ∧ p.2 ≠ asc "0" then none else some p.2
    else findDb conf atol ps

/-- process_query, Server/dserve.c lines 404-529, from line 457 on: what is done to the databases. `there`: the databases that can be attached; `atol`: atoi and atol of the C library. -/
def process (conf : Conf) (cl : Client) (there : Str → Bool) (atol : Str → Int) (ps : Params) : List Action :=
  match findDb conf atol ps with
  | none => []
  | some db =>
    match ps.find? fun p => p.1 = asc "op" with
    | none => []
    | some p =>
      if p.2 ∈ [asc "count", asc "search", asc "select"] then (search conf cl there db ps false).toList
      else if p.2 = asc "insert" then insert conf cl there atol db ps
      else if p.2 ∈ [asc "update", asc "delete"] then (search conf cl there db ps true).toList
      else if p.2 = asc "create" then (create conf cl atol ps).toList
      else if p.2 = asc "drop" then (drop conf cl there atol db ps).toList
      else []

end WG.Serve
