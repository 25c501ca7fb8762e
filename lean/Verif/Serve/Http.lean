import Verif.Serve.Url
import Verif.Serve.Search

/-!
# The server: reading a request

The part of handle_http in Server/dserve_net.c that reads a request from the connection and finds the query in it, with readlineb, get_post_data, write_header and write_header_clen. A thread of
the pool keeps its variables from one request to the next. The bytes that the client sends up to the end of its side of the connection are a list. Simplifications: `recv` does not
fail, and nothing is encrypted (USE_OPENSSL is not defined).
-/
namespace WG.Serve.Http
open WG.Csv (Str Byte asc)

/-- Where `query` points to. -/
inductive Ptr
  /-- into `buf` -/
  | buf (off : Nat)
  /-- to a block whose first byte is 0 -/
  | empty
  /-- to a block that has been freed -/
  | gone
deriving DecidableEq

/-- The variables of a thread, Server/dserve_net.c lines 350-352; `none` is NULL, `uri` and `version` are positions in `buf`. -/
structure Th where
  buf : List Byte
  uri : Option Nat
  version : Option Nat
  query : Option Ptr

/-- A new thread: the contents of `buf` are not set. -/
def fresh (buf : List Byte) : Th := ⟨buf, none, none, none⟩

/-- What becomes of a request: the errors in lines 468, 471 and 490, Server/dserve_net.c, a query for process_query (lines 495, 509), or undefined behaviour. -/
inductive Ans
  | method | request | noQuery | query (q : Str) | bad
deriving DecidableEq

/-- The loop of readlineb, Server/dserve_net.c lines 726-741: at most `n` bytes. The line and what is left. -/
def readLine : Nat → List Byte → Str × List Byte
  | 0, inp => ([], inp)
  | _ + 1, [] => ([], [])
  | n + 1, c :: r => if c = 10#8 then ([c], r) else (c :: (readLine n r).1, (readLine n r).2)

/-- readlineb, Server/dserve_net.c lines 722-745: without any data the buffer stays as it is (line 735). -/
def readInto (maxl : Nat) (buf inp : List Byte) : List Byte × List Byte :=
  let r := readLine (maxl - 1) inp
  if r.1 = [] then (buf, r.2) else (r.1 ++ 0#8 :: buf.drop (r.1.length + 1), r.2)

/-- The loop over the request line, Server/dserve_net.c lines 459-465, at position `p` with the rest of `buf`: the new rest and the positions behind the spaces found. `none` is a read outside of `buf`. -/
def split (p i : Nat) : List Byte → Option (List Byte × List Nat)
  | [] => none
  | c :: r =>
    if 2 ≤ i ∨ c = 0#8 then some (c :: r, [])
    else if c = 32#8 then (split (p + 1) (i + 1) r).map fun x => (0#8 :: x.1, (p + 1) :: x.2)
    else (split (p + 1) i r).map fun x => (c :: x.1, x.2)

/-- The loop that looks for `?`, Server/dserve_net.c lines 476-482, in the same way. -/
def findQ (p : Nat) : List Byte → Option (List Byte × Option Nat)
  | [] => none
  | c :: r =>
    if c = 0#8 then some (c :: r, none)
    else if c = 63#8 then some (0#8 :: r, some (p + 1))
    else (findQ (p + 1) r).map fun x => (c :: x.1, x.2)

/-- MAXLINES, Server/dserve.h line 110. -/
def maxLines : Nat := 1000

/-- MAX_MALLOC, Server/dserve.h line 127. -/
def maxMalloc : Int := 100000000

/-- The header lines of a POST, Server/dserve_net.c lines 634-656: `n` lines more, `bufp` is the buffer for a line. Outer `none` is undefined behaviour, inner `none` a missing empty line.
Simplification: the content type is left out; process_query sets it to 0 before anybody reads it (Server/dserve.c line 423). -/
def headers (maxl : Nat) : Nat → List Byte → Int → List Byte → Option (Option (Int × List Byte))
  | 0, _, _, _ => some none
  | n + 1, bufp, len, inp =>
    let r := readInto maxl bufp inp
    (cstr r.1 0).bind fun s =>
      let len := if (asc "Content-Length:").isPrefixOf s ∨ (asc "content-length:").isPrefixOf s then atoi (s.drop 15) else len
      if (asc "\r\n").isPrefixOf s ∨ (asc "\n").isPrefixOf s then some (some (len, r.2)) else headers maxl n r.1 len r.2

/-- get_post_data, Server/dserve_net.c lines 623-684: the block with the query, `none` is NULL. `bufp` is what is in the buffer for lines at the start, `junk` what is in the 10 bytes behind
the data. -/
def postData (maxl : Nat) (bufp junk inp : List Byte) : Option (Option (List Byte)) :=
  (headers maxl maxLines bufp 0 inp).map fun h => h.bind fun (len, rest) =>
    if len ≤ 0 ∨ maxMalloc ≤ len then none
    else if rest.length < len.toNat then none
    else some (rest.take len.toNat ++ junk)

/-- What process_query leaves in `buf` when the query is at position `off`: parse_query works in place (Server/dserve.c lines 441-449). -/
def used (buf : List Byte) (off : Nat) (q : Str) : List Byte :=
  if maxQuery < q.length then buf
  else match parseQuery (buf.drop off) q.length with
    | some r => buf.take off ++ r.1
    | none => buf

/-- The use of `query`, Server/dserve_net.c lines 489-511. process_query frees the block of a POST (Server/dserve.c line 523, Server/dserve_util.c line 993). -/
def useQuery (t : Th) : Th × Ans := match t.query with
  | none => (t, .noQuery)
  | some .empty => (t, .noQuery)
  | some .gone => (t, .bad)
  | some (.buf off) => match cstr t.buf off with
    | none => (t, .bad)
    | some q => if q = [] then (t, .noQuery) else ({ t with buf := used t.buf off q }, .query q)

/-- A request, Server/dserve_net.c lines 455-513, for MAXLINE = `maxl` (10000, Server/dserve.h line 109). Simplification: after long answers what the client still sends is read into `buf`
(line 549); the theorems hold for any contents of `buf`. -/
def request (maxl : Nat) (bufp junk : List Byte) (t : Th) (inp : List Byte) : Th × Ans :=
  let r := readInto maxl t.buf inp
  match split 0 0 r.1 with
  | none => (t, .bad)
  | some (buf, found) =>
    let t := { t with buf := buf, uri := found[0]?.or t.uri, version := found[1]?.or t.version }
    match cstr buf 0 with
    | none => (t, .bad)
    | some m =>
      if m ≠ asc "GET" ∧ m ≠ asc "POST" then (t, .method)
      else match t.uri, t.version with
        | some uri, some _ =>
          if m = asc "GET" then match findQ uri (buf.drop uri) with
            | none => (t, .bad)
            | some (rest, q) => useQuery { t with buf := buf.take uri ++ rest, query := (q.map .buf).or t.query }
          else match postData maxl bufp junk r.2 with
            | none => (t, .bad)
            | some none => ({ t with query := none }, .noQuery)
            | some (some block) => match cstr block 0 with
              | none => (t, .bad)
              | some q => if q = [] then ({ t with query := some .empty }, .noQuery) else ({ t with query := some .gone }, .query q)
        | _, _ => (t, .request)

/-- HEADER_TEMPLATE, Server/dserve.h lines 94-101. -/
def template : Str := asc "HTTP/1.0 200 OK\r\nServer: dserve\r\nAccess-Control-Allow-Origin: *\r\nConnection: Close\r\nCache-Control: no-cache, must-revalidate\r\nPragma: no-cache\r\nContent-Length: XXXXXXXXXX \r\nContent-Type: text/plain\r\n\r\n"

/-- write_header and write_header_clen, Server/dserve_net.c lines 686-702, for an answer of `len` bytes: the number is written with a 0 byte behind it, which becomes a space, and the
other X after it become spaces. -/
def header (len : Nat) : Str :=
  let p := (template.takeWhile (· ≠ 88#8)).length
  let d := Json.digits len
  let rest := template.drop (p + d.length + 1)
  template.take p ++ d ++ 32#8 :: ((rest.takeWhile (· = 88#8)).map fun _ => 32#8) ++ rest.dropWhile (· = 88#8)

end WG.Serve.Http
