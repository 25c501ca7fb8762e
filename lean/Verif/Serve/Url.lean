import Verif.Csv.Model

/-!
# The server: reading a query

parse_query and urldecode of Server/dserve_util.c, which work in place on the buffer with the query. `none` is an access outside of the buffer.
-/
namespace WG.Serve
open WG.Csv (Str Byte asc)

/-- A write to the buffer. -/
def wr (m : List Byte) (i : Nat) (b : Byte) : Option (List Byte) := if i < m.length then some (m.set i b) else none

/-- The C string at the position: what the users of `params[i]` and `values[i]` read, Server/dserve.c lines 464-530. -/
def cstr (m : List Byte) (i : Nat) : Option Str := if 0#8 ∈ m.drop i then some ((m.drop i).takeWhile (· ≠ 0#8)) else none

/-- The loops that look for `=` and `&` and put a 0 there, Server/dserve_util.c lines 109-111 and 115-117: `n` bytes are left. The new buffer and `i`. -/
def scan (c : Byte) : Nat → List Byte → Nat → Option (List Byte × Nat)
  | 0, m, i => some (m, i)
  | n + 1, m, i => match m[i]? with
    | none => none
    | some b => if b = c then (wr m i 0#8).map fun m => (m, i) else scan c n m (i + 1)

/-- isxdigit, used at Server/dserve_util.c line 139. Simplification: bytes above 127 are not digits (the C standard leaves isxdigit of a negative char undefined). -/
def isx (b : Byte) : Bool := decide ((48 ≤ b.toNat ∧ b.toNat ≤ 57) ∨ (65 ≤ b.toNat ∧ b.toNat ≤ 70) ∨ (97 ≤ b.toNat ∧ b.toNat ≤ 102))

/-- Lines 140-142, Server/dserve_util.c, for `a` (143-145 for `b`): `char` is signed, `'A'-'a'` is -32. -/
def hexval (a : Byte) : Byte :=
  let a := if BitVec.sle 97#8 a then a - (-32) else a
  if BitVec.sle 65#8 a then a - 55 else a - 48

/-- The loop of urldecode, Server/dserve_util.c lines 136-152: `fuel` is more than the number of bytes. -/
def decLoop (endp : Nat) : Nat → List Byte → Nat → Nat → Option (List Byte)
  | 0, _, _, _ => none
  | n + 1, m, dst, src => match m[src]? with
    | none => none
    | some c =>
      if c = 0#8 then wr m dst 0#8
      else
        let copy := (wr m dst c).bind fun m => decLoop endp n m (dst + 1) (src + 1)
        if c = 37#8 ∧ src + 2 < endp then
          match m[src + 1]?, m[src + 2]? with
          | some a, some b =>
            if a ≠ 0#8 ∧ b ≠ 0#8 ∧ isx a = true ∧ isx b = true then
              (wr m dst (16#8 * hexval a + hexval b)).bind fun m => decLoop endp n m (dst + 1) (src + 3)
            else copy
          | _, _ => none
        else copy

/-- urldecode, Server/dserve_util.c lines 129-155, in place. -/
def urldecode (m : List Byte) (p : Nat) : Option (List Byte) :=
  (cstr m p).bind fun s => if s = [] then some m else decLoop (p + s.length) (s.length + 1) m p p

/-- MAXPARAMS, Server/dserve.h line 106. -/
def maxParams : Nat := 100

/-- The loop of parse_query, Server/dserve_util.c lines 107-122, from `i` on with `count` parameters: the new buffer and the positions of parameters and values, `none` for -1. -/
def parseLoop (ql : Nat) : Nat → List Byte → Nat → Nat → Option (List Byte × Option (List (Nat × Nat)))
  | 0, _, _, _ => none
  | n + 1, m, i, count =>
    if ql ≤ i then some (m, some [])
    else (scan 61#8 (ql - i) m i).bind fun r =>
      if ql ≤ r.2 + 1 then some (r.1, none)
      else (scan 38#8 (ql - (r.2 + 1)) r.1 (r.2 + 1)).bind fun r2 =>
        if maxParams ≤ count then some (r2.1, none)
        else (urldecode r2.1 i).bind fun m => (urldecode m (r.2 + 1)).bind fun m =>
          (parseLoop ql n m (r2.2 + 1) (count + 1)).map fun x => (x.1, x.2.map fun l => (i, r.2 + 1) :: l)

/-- parse_query, Server/dserve_util.c lines 103-124: the query is at the start of the buffer `m` and has `ql` bytes. -/
def parseQuery (m : List Byte) (ql : Nat) : Option (List Byte × Option (List (Nat × Nat))) := parseLoop ql (ql + 1) m 0 0

/-- MAXQUERYLEN, Server/dserve.h line 105. -/
def maxQuery : Nat := 2000

/-- Server/dserve.c lines 441-447: the buffer that parse_query works on; outer `none` is a write outside of `querybuf`, inner `none` an error. The server parses the query where it is,
other programs copy it to `querybuf`. -/
def takeQuery (isserver : Bool) (q : Str) : Option (Option (List Byte)) :=
  if maxQuery < q.length then some none
  else if isserver then some (some (q ++ [0#8]))
  else if q.length + 1 ≤ maxQuery then some (some (q ++ [0#8] ++ List.replicate (maxQuery - q.length - 1) 0#8)) else none

end WG.Serve
