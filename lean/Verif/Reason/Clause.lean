import Verif.Reason.Model

/-!
# Clauses and subsumption (Reasoner/subsume.c)
-/
namespace WG.Reason

/-- A literal of a rule clause: two words, Reasoner/clterm.h lines 81-83. `neg`: `meta & ATOM_META_NEG` is not zero; simplification: there
are only two metas, 0 and ATOM_META_NEG, as the parser makes them (Parser/dbparse.c lines 408-410). -/
structure Lit where
  neg : Bool
  atom : Term

/-- A clause: a fact clause is the record of its only atom; a rule clause is a record with literals (Reasoner/clterm.h lines 93-99). -/
inductive Clause
  | fact (atom : Term)
  | rule (lits : List Lit)

/-- The literals of a clause: a fact is one positive literal (Reasoner/derive.c lines 83-86). -/
def Clause.lits : Clause → List Lit
  | .fact a => [⟨false, a⟩]
  | .rule ls => ls

/-- Undo what was set since the stack had `k` entries, if anything: subsume.c lines 317 and 321. -/
def St.undo (s : St) (k : Nat) : St := if k ≠ s.stack.length then s.clearTop k else s

/-- The loop of wr_subsume_cl_aux over the literals of the second clause, Reasoner/subsume.c lines 282-325. `used`: `tmp_litinf_vec`. `k`:
the rest of the first clause, line 302-304. -/
def subsLoop (M : Mem) (k : List Bool → St → Res (Bool × St)) (l1 : Lit) (used : List Bool) : Nat → List Lit → St → Res (Bool × St)
  | _, [], s => .ok (false, s)
  | i, l2 :: ls, s =>
    if used.getD i true || l1.neg != l2.neg then subsLoop M k l1 used (i + 1) ls s
    else (matchTerm M l1.atom l2.atom s).bind fun r =>
      if r.1 then (k (used.set i true) r.2).bind fun q =>
        if q.1 then .ok (true, q.2)
        else if s.stack.length = r.2.stack.length then .ok (false, q.2.undo s.stack.length)
        else subsLoop M k l1 used (i + 1) ls (q.2.undo s.stack.length)
      else subsLoop M k l1 used (i + 1) ls (r.2.undo s.stack.length)

/-- wr_subsume_cl_aux, Reasoner/subsume.c lines 260-331. -/
def subsAux (M : Mem) (cl2 : List Lit) : List Lit → List Bool → St → Res (Bool × St)
  | [], _, s => .ok (false, s)
  | l1 :: rest, used, s => subsLoop M (fun used s => match rest with
      | [] => .ok (true, s)
      | _ :: _ => subsAux M cl2 rest used s) l1 used 0 cl2 s

/-- The loop of lines 161-166 in Reasoner/subsume.c: a fact against the literals of a rule. -/
def factLoop (M : Mem) (a : Term) : List Lit → Res Bool
  | [] => .ok false
  | l :: ls => if l.neg then factLoop M a ls else (equalTerm M a l.atom).bind fun b => if b then .ok true else factLoop M a ls

/-- The loop of lines 204-214 in Reasoner/subsume.c: a rule with one literal against the literals of a rule. -/
def unitLoop (M : Mem) (l1 : Lit) : List Lit → St → Res (Bool × St)
  | [], s => .ok (false, s)
  | l2 :: ls, s =>
    if l1.neg != l2.neg then unitLoop M l1 ls s
    else (matchTerm M l1.atom l2.atom s).bind fun r => if r.1 then .ok (true, r.2.clearStack) else unitLoop M l1 ls r.2.clearStack

/-- wr_subsume_cl, Reasoner/subsume.c lines 130-235. Simplification: `tmp_litinf_vec` can always be made long enough, and counting of the
attempts is left out. -/
def subsume (M : Mem) (c1 c2 : Clause) (s : St) : Res (Bool × St) :=
  match c1, c2 with
  | .fact a, .fact b => (equalTerm M a b).bind fun r => .ok (r, s)
  | .fact a, .rule ls => (factLoop M a ls).bind fun r => .ok (r, s)
  | .rule [], .fact _ => .bad
  | .rule [l], .fact b => if l.neg then .ok (false, s) else (matchTerm M l.atom b s).bind fun r => .ok (r.1, r.2.clearStack)
  | .rule _, .fact _ => .ok (false, s)
  | .rule [l], .rule ls => unitLoop M l ls s
  | .rule ks, .rule ls =>
    if ks.length > ls.length then .ok (false, s)
    else (subsAux M ls ks (List.replicate ls.length false) s).bind fun r => .ok (r.1, r.2.clearStack)

/-- wr_given_cl_subsumed, Reasoner/subsume.c lines 64-97: is the clause subsumed by one of the active ones? -/
def givenSubsumed (M : Mem) (given : Clause) : List Clause → St → Res (Bool × St)
  | [], s => .ok (false, s)
  | c :: cs, s => (subsume M c given s).bind fun r => if r.1 then .ok (true, r.2) else givenSubsumed M given cs r.2

end WG.Reason
