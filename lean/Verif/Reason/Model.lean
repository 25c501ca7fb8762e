/-!
# Terms of the reasoner: equality, matching, unification (Reasoner/unify.c)

The reasoner works on words of the database. A word is a variable, a constant, or a pointer to a record; a record used as a term has one
header field and the parts of the term behind it (wr_create_atom and wr_create_term, Reasoner/clterm.c lines 98-113, with
`unify_firstuseterm` = 1 and `unify_footerlen` = 0, glb.c lines 105-111). The settings of glb.c lines 105-107 are built in here:
`unify_samelen` = 1, `unify_maxuseterms` = 0, `unify_firstuseterm` = 1; nothing in the code changes them. `uniquestrflag` is 1, as in
every call of these functions (rgenloop.c line 506, derive.c line 353, subsume.c line 86, build.c line 304).
-/
namespace WG.Reason

/-- The words that are constants. `imm`: the last bits are 011 or 111 and the word holds the value itself (Db/dbdata.h lines 307-406).
Others point to a cell of the database: 01 full integer, 010 double, 110 short string, 100 long string or URI. -/
inductive Const
  | imm (w : Nat) | int (off : Nat) | dbl (off : Nat) | sstr (off : Nat) | lstr (off : Nat)
deriving DecidableEq

/-- A word, with everything that it leads to. `app a ts`: pointer to the record at `a`, whose parts behind the header field are `ts`.
`nul`: the word 0, which encodes NULL. Variables: the number of wg_encode_var; simplification: it is not negative. -/
inductive Term
  | var (n : Nat) | con (c : Const) | nul | app (a : Nat) (ts : List Term)

/-- Values of constants. Doubles: one number for each value that the C comparison `==` tells apart; simplification: no NaN. Long strings
have no value but their place, as equal ones are stored once. -/
inductive Val
  | null | imm (w : Nat) | int (i : Int) | dbl (d : Nat) | sstr (s : List (BitVec 8)) | lstr (off : Nat)
deriving DecidableEq

/-- The memory behind the words: contents of the cells, and the parts of the records. -/
structure Mem where
  int : Nat → Int
  dbl : Nat → Nat
  sstr : Nat → List (BitVec 8)
  parts : Nat → List Term

/-- The value of a constant. -/
def Const.val (M : Mem) : Const → Val
  | .imm w => .imm w
  | .int o => .int (M.int o)
  | .dbl o => .dbl (M.dbl o)
  | .sstr o => .sstr (M.sstr o)
  | .lstr o => .lstr o

/-- How a piece of code ends: `out`: not within the given number of nested calls. `bad`: it reads or writes memory that is not what it is
taken for: a record at a word that is no pointer to a record, or a place outside of an array. -/
inductive Res (α : Type)
  | out | bad | ok (a : α)

def Res.bind {α β : Type} : Res α → (α → Res β) → Res β
  | .out, _ => .out
  | .bad, _ => .bad
  | .ok a, k => k a

/-! ## Words -/

/-- `x==y` for words. -/
def Term.same : Term → Term → Bool
  | .var n, .var m => n == m
  | .con c, .con d => c == d
  | .nul, .nul => true
  | .app a _, .app b _ => a == b
  | _, _ => false

/-- `isdatarec`, Db/dbdata.h line 419: the last three bits are 000. NULL is the word 0 and passes. -/
def Term.isRec : Term → Bool
  | .app _ _ => true
  | .nul => true
  | _ => false

/-- `isvar`, Db/dbdata.h line 427, and `decode_var`, line 355. -/
def Term.var? : Term → Option Nat
  | .var n => some n
  | _ => none

/-- `decode_record` and the words of the record behind the header field (Reasoner/clterm.h lines 89-90): at any other word there is no
record. -/
def Term.parts : Term → Res (List Term)
  | .app _ ts => .ok ts
  | _ => .bad

/-! ## Equality -/

/-- wr_equal_ptr_primitives, Reasoner/unify.c lines 437-494, with `uniquestrflag` 1. -/
def eqPrim (M : Mem) : Const → Const → Bool
  | .int a, .int b => M.int a == M.int b
  | .dbl a, .dbl b => M.dbl a == M.dbl b
  | .sstr a, .sstr b => M.sstr a == M.sstr b
  | .lstr a, .lstr b => a == b
  | _, _ => false

mutual
/-- The macro WR_EQUAL_TERM, Reasoner/unify.h lines 48-53, with wr_equal_term_macroaux, unify.c lines 392-434. Lines 402-407 deal with an
`x` that is no record; lines 408-433 take both for records, although `y` can be a long string: the macro compares two bits only, and these
are the same for records and long strings. -/
def eqTerm (M : Mem) : Term → Term → Res Bool
  | .var n, y => .ok ((Term.var n).same y)
  | .nul, y => .ok (Term.nul.same y)
  | .con c, .con d => .ok (c == d || eqPrim M c d)
  | .con _, _ => .ok false
  | .app _ _, .var _ => .ok false
  | .app _ _, .nul => .ok false
  | .app _ _, .con (.lstr _) => .bad
  | .app _ _, .con _ => .ok false
  | .app a ts, .app b us => if a = b then .ok true else if ts.length ≠ us.length then .ok false else eqArgs M ts us
/-- The loop, Reasoner/unify.c lines 427-431. -/
def eqArgs (M : Mem) : List Term → List Term → Res Bool
  | t :: ts, u :: us => (eqTerm M t u).bind fun b => if b then eqArgs M ts us else .ok false
  | _, _ => .ok true
end

/-- wr_equal_term, Reasoner/unify.c lines 329-383: as the macro, but with a test that `y` is a record (line 357). -/
def equalTerm (M : Mem) (x y : Term) : Res Bool :=
  if x.same y then .ok true
  else if x.isRec && !y.isRec then .ok false
  else eqTerm M x y

/-! ## Bindings -/

/-- NROF_VARBANKS * NROF_VARSINBANK, Reasoner/glb.h lines 47-48; the length of `varbanks` and of `varstack`, glb.c lines 260-262. -/
def NV : Nat := 5000

/-- `varbanks` (`none`: UNASSIGNED) and `varstack`: the variables that have been set, newest first. -/
structure St where
  bank : Nat → Option Term
  stack : List Nat

/-- After wr_clear_all_varbanks, Reasoner/unify.c lines 594-607, with an empty stack. -/
def St.clear : St := ⟨fun _ => none, []⟩

/-- `vb[decode_var(x)]`. -/
def St.get (s : St) (n : Nat) : Res (Option Term) := if n < NV then .ok (s.bank n) else .bad

/-- SETVAR, Reasoner/unify.h line 43: the entry of the stack is behind two words of header, in an array of `NV + 2` words. -/
def St.set (s : St) (n : Nat) (t : Term) : Res St :=
  if n < NV ∧ s.stack.length < NV then .ok ⟨fun m => if m = n then some t else s.bank m, n :: s.stack⟩ else .bad

/-- wr_varval, Reasoner/unify.c lines 509-529, and VARVAL_F, unify.h line 41: a loop that follows variables. -/
def varval : Nat → St → Nat → Res Term
  | 0, _, _ => .out
  | f + 1, s, n => (s.get n).bind fun
    | none => .ok (.var n)
    | some (.var m) => varval f s m
    | some t => .ok t

/-- `if (isvar(x)) x=VARVAL_F(x,(g->varbanks));` -/
def deref (f : Nat) (s : St) : Term → Res Term
  | .var n => varval f s n
  | t => .ok t

/-- wr_clear_varstack, Reasoner/unify.c lines 554-569: every cell on the stack is made UNASSIGNED. -/
def St.clearStack (s : St) : St := ⟨fun m => if m ∈ s.stack then none else s.bank m, []⟩

/-- wr_clear_varstack_topslice, Reasoner/unify.c lines 576-591: the same for the cells that were set since the stack had `k` entries. -/
def St.clearTop (s : St) (k : Nat) : St :=
  ⟨fun m => if m ∈ s.stack.take (s.stack.length - k) then none else s.bank m, s.stack.drop (s.stack.length - k)⟩

/-! ## Unification -/

/-- The loop of wr_occurs_in over the parts of a record, Reasoner/unify.c lines 205-212. `deref`, `occ`: what the loop calls. -/
def occLoop (deref : Term → Res Term) (occ : Term → Res Bool) (n : Nat) : List Term → Res Bool
  | [] => .ok false
  | t :: ts => (deref t).bind fun t =>
    if (Term.var n).same t then .ok true
    else if t.isRec then (occ t).bind fun b => if b then .ok true else occLoop deref occ n ts
    else occLoop deref occ n ts

/-- wr_occurs_in, Reasoner/unify.c lines 183-215. -/
def occurs : Nat → St → Nat → Term → Res Bool
  | 0, _, _, _ => .out
  | f + 1, s, n, y => y.parts.bind fun ts => occLoop (deref f s) (occurs f s n) n ts

/-- The loop over the parts of two records, Reasoner/unify.c lines 169-173. `u`: the call in it. -/
def unifyLoop (u : St → Term → Term → Res (Bool × St)) : St → List Term → List Term → Res (Bool × St)
  | s, t :: ts, v :: vs =>
    if t.same v then unifyLoop u s ts vs
    else (u s t v).bind fun r => if r.1 then unifyLoop u r.2 ts vs else .ok (false, r.2)
  | s, _, _ => .ok (true, s)

/-- Binding a variable to a record, Reasoner/unify.c lines 125-131 and 139-145: `tmp_unify_occcheck` is 1 from line 66 on and never set
to anything else in a call. -/
def bindRec (occ : Term → Res Bool) (s : St) (n : Nat) (t : Term) : Res (Bool × St) :=
  (occ t).bind fun b => if b then .ok (false, s) else (s.set n t).bind fun s => .ok (true, s)

/-- wr_unify_term_aux, Reasoner/unify.c lines 97-175, behind the second comparison of the words: the ladder of possibilities. -/
def ladder (M : Mem) (occ : Nat → Term → Res Bool) (u : St → Term → Term → Res (Bool × St)) (s : St) (x y : Term) : Res (Bool × St) :=
  match x, y with
  | .var n, .var m => (s.set n (.var m)).bind fun s => .ok (true, s)
  | .var n, .con c => (s.set n (.con c)).bind fun s => .ok (true, s)
  | .var n, y => bindRec (occ n) s n y
  | .con c, .var m => (s.set m (.con c)).bind fun s => .ok (true, s)
  | .con c, .con d => .ok (eqPrim M c d, s)
  | .con _, _ => .ok (false, s)
  | x, .var m => bindRec (occ m) s m x
  | _, .con _ => .ok (false, s)
  | x, y => x.parts.bind fun ts => y.parts.bind fun us =>
    if ts.length ≠ us.length then .ok (false, s) else unifyLoop u s ts us

/-- wr_unify_term_aux, Reasoner/unify.c lines 81-176. -/
def unify (M : Mem) : Nat → St → Term → Term → Res (Bool × St)
  | 0, _, _, _ => .out
  | f + 1, s, x, y =>
    if x.same y then .ok (true, s)
    else (deref f s x).bind fun x => (deref f s y).bind fun y =>
      if x.same y then .ok (true, s) else ladder M (occurs f s) (unify M f) s x y

/-! ## Matching -/

mutual
/-- wr_match_term_aux, Reasoner/unify.c lines 251-311. An `x` that is a constant and not equal to `y` falls through to lines 284-309 if
`y` is a record. -/
def matchTerm (M : Mem) : Term → Term → St → Res (Bool × St)
  | .var n, y, s => (s.get n).bind fun
    | none => (s.set n y).bind fun s => .ok (true, s)
    | some v => (eqTerm M v y).bind fun b => .ok (b, s)
  | .con c, y, s => (eqTerm M (.con c) y).bind fun b => if b then .ok (true, s) else if y.isRec then .bad else .ok (false, s)
  | .nul, y, s => if y.isRec then .bad else .ok (false, s)
  | .app _ ts, y, s => if y.isRec then y.parts.bind fun us => if ts.length ≠ us.length then .ok (false, s) else matchArgs M ts us s
    else .ok (false, s)
/-- The loop, Reasoner/unify.c lines 304-308. -/
def matchArgs (M : Mem) : List Term → List Term → St → Res (Bool × St)
  | t :: ts, u :: us, s => (matchTerm M t u s).bind fun r => if r.1 then matchArgs M ts us r.2 else .ok (false, r.2)
  | _, _, s => .ok (true, s)
end

end WG.Reason
