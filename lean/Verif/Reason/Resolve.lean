import Verif.Reason.Clause

/-!
# The resolution loop (Reasoner/build.c, derive.c, clstore.c, rgenloop.c, rmain.c)

Left out everywhere: printing and counting. Records that are built are always put at new places; simplification: the code reuses
`given_termbuf` and `derived_termbuf` for every new given clause and every new result, when what was in them is not used any more.
-/
namespace WG.Reason

/-- ACONST_FALSE, ACONST_TRUE, ACONST_EQUAL and ACONST_PLUS, Db/dballoc.h lines 522, 524, 541 and 553: the words `encode_anonconst` makes of
0, 1, 9 and 15, Db/dbdata.h lines 402-406. -/
def aFalse : Const := .imm 95
def aTrue : Const := .imm 351
def aEqual : Const := .imm 2399
def aPlus : Const := .imm 3935

/-- What the loop depends on. The first four: the settings of Reasoner/glb.c lines 115 and 121-123 (`hyperres_strat`, `negpref_strat`,
`pospref_strat`, `use_comp_funs_strat`; there 1, 1, 0, 1). `hash`: wr_term_basehash, clstore.c lines 720-790, any function here. `plus`: the
word for the sum of two numbers, `none` if they are not both numbers: wr_compute_fun_plus, build.c lines 259-289, any function here;
simplification: the cells of computed numbers are there from the start. `uri`: is the long string a URI? `room`: is there room for
allocation number so-and-so? -/
structure Cfg where
  hyper : Bool
  negpref : Bool
  pospref : Bool
  comp : Bool
  hash : Term → Nat
  plus : Const → Const → Option Const
  uri : Nat → Bool
  room : Nat → Bool

/-- What building changes: the memory, the place of the next record, the variables, `build_rename_vc`. -/
structure Bld where
  mem : Mem
  next : Nat
  st : St
  vc : Nat

/-- A record is filled. -/
def Mem.put (M : Mem) (a : Nat) (ts : List Term) : Mem := { M with parts := fun b => if b = a then ts else M.parts b }

/-! ## Building: build.c -/

/-- The loop over the parts, Reasoner/build.c lines 191-200: in copy mode, words that are no records are copied at once. -/
def buildLoop (bd : Bld → Term → Res (Option (Term × Bld))) : Bld → List Term → Res (Option (List Term × Bld))
  | b, [] => .ok (some ([], b))
  | b, t :: ts => (bd b t).bind fun
    | none => .ok none
    | some (u, b) => (buildLoop bd b ts).bind fun
      | none => .ok none
      | some (us, b) => .ok (some (u :: us, b))

/-- A variable without a value, Reasoner/build.c lines 144-161. `mode`: `none`: no renaming; `some B`: `build_rename_banknr` is `B`. -/
def buildVar (mode : Option Nat) (b : Bld) (n : Nat) : Res (Option (Term × Bld)) :=
  match mode with
  | none => .ok (some (.var n, b))
  | some B =>
    if n < 4000 then
      if 1000 ≤ b.vc then .ok none
      else (b.st.set n (.var (b.vc + 4000))).bind fun st => .ok (some (.var (B * 1000 + b.vc), { b with st := st, vc := b.vc + 1 }))
    else .ok (some (.var (B * 1000 + (n - 4000)), b))

/-- The types that wr_compute_fun_equal leaves alone, Reasoner/build.c lines 310-311: URIs and anonymous constants (the last byte is
0x5f, Db/dbdata.h lines 402-406). -/
def Const.opaque (cfg : Cfg) : Const → Bool
  | .imm w => w % 256 == 95
  | .lstr o => cfg.uri o
  | _ => false

/-- wr_compute_fun_equal, Reasoner/build.c lines 292-316. -/
def computeEqual (cfg : Cfg) (M : Mem) (a b : Term) : Res (Option Const) :=
  (equalTerm M a b).bind fun e =>
    if e then .ok (some aTrue)
    else match a, b with
      | .con c, .con d => .ok (if c.opaque cfg || d.opaque cfg then none else some aFalse)
      | _, _ => .ok none

/-- wr_compute_fun_plus, Reasoner/build.c lines 259-289. -/
def computePlus (cfg : Cfg) (a b : Term) : Res (Option Const) :=
  match a, b with
  | .con c, .con d => .ok (cfg.plus c d)
  | _, _ => .ok none

/-- wr_computable_termptr and wr_compute_from_termptr, Reasoner/build.c lines 219-256, for the parts of a term. `none`: the term stays.
A term without parts has no field 1. -/
def compute (cfg : Cfg) (M : Mem) : List Term → Res (Option Const)
  | [] => .bad
  | .con c :: a :: b :: _ => if c = aPlus then computePlus cfg a b else if c = aEqual then computeEqual cfg M a b else .ok none
  | _ => .ok none

/-- A record whose parts have been built, Reasoner/build.c lines 209-215. -/
def buildRec (cfg : Cfg) (comp : Bool) (a : Nat) (us : List Term) (b : Bld) : Res (Option (Term × Bld)) :=
  if comp then (compute cfg b.mem us).bind fun
    | some c => .ok (some (.con c, { b with mem := b.mem.put a us }))
    | none => .ok (some (.app a us, { b with mem := b.mem.put a us }))
  else .ok (some (.app a us, { b with mem := b.mem.put a us }))

/-- Values are looked up if variables are renamed, Reasoner/build.c line 141 (`build_subst` is not set without `build_rename`). -/
def buildDeref (mode : Option Nat) (f : Nat) (b : Bld) (x : Term) : Res Term :=
  match mode with
  | none => .ok x
  | some _ => deref f b.st x

/-- wr_build_calc_term, Reasoner/build.c lines 128-217. `comp`: `use_comp_funs`. `none`: WG_ILLEGAL; `alloc_err` is set then. -/
def build (cfg : Cfg) (comp : Bool) (mode : Option Nat) : Nat → Bld → Term → Res (Option (Term × Bld))
  | 0, _, _ => .out
  | f + 1, b, x => (buildDeref mode f b x).bind fun
    | .var n => buildVar mode b n
    | .con c => .ok (some (.con c, b))
    | .nul => .bad
    | .app _ ts =>
      if cfg.room b.next then (buildLoop (build cfg comp mode f) { b with next := b.next + 1 } ts).bind fun
        | none => .ok none
        | some (us, b') => buildRec cfg comp b.next us b'
      else .ok none

/-- The loop of wr_build_calc_cl over the literals, Reasoner/build.c lines 103-110. -/
def buildLits (bd : Bld → Term → Res (Option (Term × Bld))) : Bld → List Lit → Res (Option (List Lit × Bld))
  | b, [] => .ok (some ([], b))
  | b, l :: ls => (bd b l.atom).bind fun
    | none => .ok none
    | some (u, b) => (buildLits bd b ls).bind fun
      | none => .ok none
      | some (us, b) => .ok (some (⟨l.neg, u⟩ :: us, b))

/-- A fact is the record of its atom, which must be one: Reasoner/build.c line 84, derive.c line 177. -/
def asFact : Option (Term × Bld) → Res (Option (Clause × Bld))
  | none => .ok none
  | some (.app a ts, b) => .ok (some (.fact (.app a ts), b))
  | some _ => .bad

def asRule : Option (List Lit × Bld) → Res (Option (Clause × Bld))
  | none => .ok none
  | some (ls, b) => .ok (some (.rule ls, b))

/-- wr_build_calc_cl, Reasoner/build.c lines 64-114. -/
def buildCl (cfg : Cfg) (comp : Bool) (mode : Option Nat) (f : Nat) (b : Bld) : Clause → Res (Option (Clause × Bld))
  | .fact a => (build cfg comp mode f b a).bind asFact
  | .rule ls =>
    if cfg.room b.next then (buildLits (build cfg comp mode f) { b with next := b.next + 1 } ls).bind asRule else .ok none

/-! ## The state of the reasoner -/

/-- The buffers in which records are built; `part n`: one that is made for a partial result, derive.c line 138; `wild`: a pointer
variable that was never set. -/
inductive Buf
  | given | active | derived | queue | part (n : Nat) | wild
deriving DecidableEq

structure Sys where
  b : Bld
  /-- `use_comp_funs` -/
  comp : Bool
  /-- `build_buffer` -/
  buf : Buf
  /-- what has been given to `free` -/
  freed : List Buf
  nparts : Nat
  /-- `clqueue`, from `clqueue_given` on -/
  passive : List Clause
  /-- `clactive` -/
  active : List Clause
  /-- `hash_pos_atoms`, `hash_neg_atoms`: hash, atom, clause; newest first -/
  pos : List (Nat × Term × Clause)
  neg : List (Nat × Term × Clause)

/-- `ok none`: `alloc_err` has been set, and the search ends with -1. -/
abbrev Out (α : Type) : Type := Res (Option (α × Sys))

def Out.bind {α β : Type} (x : Out α) (k : α → Sys → Out β) : Out β := Res.bind x fun
  | none => .ok none
  | some (a, s) => k a s

/-- wr_clear_varstack. -/
def Sys.clearVars (s : Sys) : Sys := { s with b := { s.b with st := s.b.st.clearStack } }

/-- What is built goes to `s.buf`. -/
def Sys.built {α : Type} (s : Sys) (r : Res (Option (α × Bld))) : Out α :=
  if s.buf ∈ s.freed then .bad else r.bind fun
    | none => .ok none
    | some (a, b) => .ok (some (a, { s with b := b }))

/-! ## Choosing literals -/

/-- Reasoner/rgenloop.c lines 352-381 and 407-411, clstore.c lines 303-332 and 350-356, for a rule. `all`: `hyperres_strat` when clauses
are stored (clstore.c line 352), `false` when they are resolved. `added`: `negadded` is not 0. -/
def choose (cfg : Cfg) (all posok negok : Bool) : Bool → List Lit → List Lit
  | _, [] => []
  | added, l :: ls =>
    if !(cfg.negpref || cfg.pospref) || (l.neg && all) || (negok && l.neg && !added) || (posok && !l.neg)
    then l :: choose cfg all posok negok (added || l.neg) ls
    else choose cfg all posok negok added ls

/-- The literals of a clause that are used: the only one of a fact, or as chosen. -/
def chosen (cfg : Cfg) (all : Bool) : Clause → List Lit
  | .fact a => [⟨false, a⟩]
  | .rule ls =>
    let both := ls.any (fun l => l.neg) && ls.any (fun l => !l.neg)
    choose cfg all (!(cfg.negpref && both)) (!(cfg.pospref && both)) false ls

/-- wr_atom_funhash, Reasoner/clstore.c lines 691-712: the first part of the atom's record. -/
def funHash (cfg : Cfg) : Term → Res Nat
  | .app _ (f :: _) => .ok (cfg.hash f)
  | _ => .bad

/-- The loop of wr_cl_store_res_terms, Reasoner/clstore.c lines 345-391, with wr_clterm_add_hashlist, lines 862-901: behind the head of
the chain. Simplification: the hash is in the range of the array. -/
def storeTerms (cfg : Cfg) (c : Clause) : List Lit → Sys → Res Sys
  | [], s => .ok s
  | l :: ls, s => (funHash cfg l.atom).bind fun h =>
    storeTerms cfg c ls (if l.neg then { s with neg := (h, l.atom, c) :: s.neg } else { s with pos := (h, l.atom, c) :: s.pos })

/-- wr_push_clactive_cl, Reasoner/clstore.c lines 117-124. -/
def pushActive (cfg : Cfg) (s : Sys) (c : Clause) : Res Sys :=
  storeTerms cfg c (chosen cfg cfg.hyper c) { s with active := s.active ++ [c] }

/-- wr_process_given_cl, Reasoner/rgenloop.c lines 240-261 and 296-317: renamed to bank 1. -/
def processGiven (cfg : Cfg) (f : Nat) (s : Sys) (c : Clause) : Out Clause :=
  let s := { s with buf := .given, b := { s.b with vc := 0 } }
  Out.bind (s.built (buildCl cfg s.comp (some 1) f s.b c)) fun c s => .ok (some (c, s.clearVars))

/-- wr_add_given_cl_active_list, Reasoner/rgenloop.c lines 263-293: renamed to bank 2, and stored. -/
def addActive (cfg : Cfg) (f : Nat) (s : Sys) (c : Clause) : Out Unit :=
  let s := { s with buf := .active, b := { s.b with vc := 0 } }
  Out.bind (s.built (buildCl cfg s.comp (some 2) f s.b c)) fun c s => (pushActive cfg s.clearVars c).bind fun s => .ok (some ((), s))

/-! ## Resolution: derive.c -/

/-- The loop over the literals that are there, Reasoner/derive.c lines 352-372: `some true`: the same literal, `some false`: its
negation. -/
def dupLoop (M : Mem) (l : Lit) : List Lit → Res (Option Bool)
  | [] => .ok none
  | k :: ks => (equalTerm M l.atom k.atom).bind fun e => if e then .ok (some (l.neg == k.neg)) else dupLoop M l ks

/-- A new literal, Reasoner/derive.c lines 343-379. `none`: the clause is dropped. -/
def addLit (M : Mem) (l : Lit) (r : List Lit) : Res (Option (List Lit)) :=
  if l.atom.same (.con aTrue) then .ok (if l.neg then some r else none)
  else if l.atom.same (.con aFalse) then .ok (if l.neg then none else some r)
  else (dupLoop M l r).bind fun
    | none => .ok (some (r ++ [l]))
    | some true => .ok (some r)
    | some false => .ok none

/-- wr_process_resolve_result_aux, Reasoner/derive.c lines 315-381. `r`: the literals so far. The result: `none` if building failed; the
literals, `none` if the clause is dropped. -/
def auxLoop (bd : Bld → Term → Res (Option (Term × Bld))) (cut : Term) : List Lit → Bld → List Lit → Res (Option (Option (List Lit) × Bld))
  | [], b, r => .ok (some (some r, b))
  | l :: ls, b, r =>
    if l.atom.same cut then auxLoop bd cut ls b r
    else (bd b l.atom).bind fun
      | none => .ok none
      | some (u, b) => (addLit b.mem ⟨l.neg, u⟩ r).bind fun
        | none => .ok (some (none, b))
        | some r => auxLoop bd cut ls b r

/-- Only for clauses with more than one atom, Reasoner/derive.c lines 107 and 114. -/
def auxCl (bd : Bld → Term → Res (Option (Term × Bld))) (c : Clause) (cut : Term) (b : Bld) (r : List Lit) :
    Res (Option (Option (List Lit) × Bld)) :=
  if 1 < c.lits.length then auxLoop bd cut c.lits b r else .ok (some (some r, b))

/-- Reasoner/derive.c lines 106-120. -/
def auxBoth (bd : Bld → Term → Res (Option (Term × Bld))) (x : Term) (xcl : Clause) (y : Term) (ycl : Clause) (b : Bld) :
    Res (Option (Option (List Lit) × Bld)) :=
  (auxCl bd xcl x b []).bind fun
    | none => .ok none
    | some (none, b) => .ok (some (none, b))
    | some (some r, b) => auxCl bd ycl y b r

/-- wr_process_resolve_result_cleanupsubst, Reasoner/derive.c lines 270-276: the first variables of bank 3 become UNASSIGNED; the stack is
not touched. -/
def Bld.cleanup (b : Bld) : Bld :=
  { b with st := { b.st with bank := fun m => if 3000 ≤ m ∧ m < 3000 + b.vc then none else b.st.bank m } }

/-- wr_process_resolve_result_isrulecl, Reasoner/derive.c lines 219-251, negated. -/
def factLike : List Lit → Bool
  | [⟨false, .app _ ts⟩] => ts.all fun t => !t.isRec && t.var?.isNone
  | _ => false

/-- wr_hyperres_satellite_tmpres, Reasoner/derive.c lines 418-431. -/
def satTmp (cfg : Cfg) (r : List Lit) : Bool := r.all fun l => if l.neg then !cfg.negpref else !cfg.pospref

/-- wr_hyperres_satellite_cl, Reasoner/derive.c lines 388-411. -/
def satCl (cfg : Cfg) : Clause → Bool
  | .fact _ => cfg.negpref
  | .rule ls => satTmp cfg ls

/-- The clause is copied to where it stays, Reasoner/derive.c lines 145-184. -/
def copyRes (cfg : Cfg) (f : Nat) (r : List Lit) (b : Bld) : Res (Option (Clause × Bld)) :=
  if factLike r then buildCl cfg false none f b (.fact (match r with | l :: _ => l.atom | [] => .nul))
  else buildCl cfg false none f b (.rule r)

/-- `wr_vec_free(g,g->build_buffer)`, Reasoner/derive.c lines 202-203, and `build_buffer` gets back the pointer kept in line 135. -/
def freeBuf (stored : Buf) (s : Sys) : Res Sys :=
  if s.buf = .wild ∨ s.buf ∈ s.freed then .bad else .ok { s with freed := s.buf :: s.freed, buf := stored }

/-- What becomes of the result, Reasoner/derive.c lines 190-214. `rec`: wr_resolve_binary_all_active. -/
def deliver (cfg : Cfg) (again : Sys → Clause → Out Bool) (stored : Buf) (s : Sys) (c : Clause) : Out Bool :=
  if cfg.hyper && !satCl cfg c then
    Out.bind (again s.clearVars c) fun p s => (freeBuf stored s).bind fun s => .ok (some (p, s))
  else .ok (some (false, { s with passive := s.passive ++ [c] }))

/-- The result is built, Reasoner/derive.c lines 121-144 and what follows. -/
def finish (cfg : Cfg) (f : Nat) (again : Sys → Clause → Out Bool) (r : List Lit) (s : Sys) : Out Bool :=
  if r = [] then .ok (some (true, s))
  else
    let part := cfg.hyper && !satTmp cfg r
    let stored := if part then s.buf else .wild
    let s := { s with comp := false, buf := if part then .part s.nparts else .queue, nparts := s.nparts + 1 }
    Out.bind (s.built (copyRes cfg f r s.b)) fun c s => deliver cfg again stored s c

/-- wr_process_resolve_result, Reasoner/derive.c lines 53-215; wr_process_resolve_result_setupsubst, lines 253-268. The result: has a proof
been found? -/
def processResult (cfg : Cfg) (f : Nat) (again : Sys → Clause → Out Bool) (x : Term) (xcl : Clause) (y : Term) (ycl : Clause) (s : Sys) :
    Out Bool :=
  if xcl.lits.length + ycl.lits.length = 2 then .ok (some (true, s))
  else if Buf.derived ∈ s.freed then .bad
  else if cfg.room s.b.next then
    let s := { s with comp := cfg.comp, buf := .derived, b := { s.b with next := s.b.next + 1, vc := 0 } }
    Out.bind (s.built (auxBoth (build cfg s.comp (some 3) f) x xcl y ycl s.b)) fun r s =>
      let s := { s with b := s.b.cleanup }
      match r with
      | none => .ok (some (false, s))
      | some r => finish cfg f again r s
  else .ok none

/-! ## The loop: rgenloop.c -/

/-- The loop over the candidates, Reasoner/rgenloop.c lines 466-531. `pr`: wr_process_resolve_result. -/
def nodeLoop (f : Nat) (pr : Term → Clause → Sys → Out Bool) (x : Term) : List (Nat × Term × Clause) → Sys → Out Bool
  | [], s => .ok (some (false, s))
  | (_, y, ycl) :: ns, s => (unify s.b.mem f s.b.st x y).bind fun r =>
    let s := { s with b := { s.b with st := r.2 } }
    if r.1 then Out.bind (pr y ycl s) fun p s => if p then .ok (some (true, s.clearVars)) else nodeLoop f pr x ns s.clearVars
    else nodeLoop f pr x ns s.clearVars

/-- The loop over the literals, Reasoner/rgenloop.c lines 393-533: candidates have the other sign and the same hash. -/
def litLoop (cfg : Cfg) (f : Nat) (pr : Term → Term → Clause → Sys → Out Bool) : List Lit → Sys → Out Bool
  | [], s => .ok (some (false, s))
  | l :: ls, s => (funHash cfg l.atom).bind fun h =>
    Out.bind (nodeLoop f (pr l.atom) l.atom ((if l.neg then s.pos else s.neg).filter fun n => n.1 == h) s) fun p s =>
      if p then .ok (some (true, s)) else litLoop cfg f pr ls s

/-- wr_resolve_binary_all_active, Reasoner/rgenloop.c lines 319-537. -/
def resolveAll (cfg : Cfg) : Nat → Sys → Clause → Out Bool
  | 0, _, _ => .out
  | f + 1, s, c => litLoop cfg f (fun x y ycl => processResult cfg f (resolveAll cfg f) x c y ycl) (chosen cfg false c) s

/-- What wr_genloop returns: 0, 1, -1. -/
inductive Verdict
  | proof | finished | stopped
deriving DecidableEq

/-- `alloc_err`: the search is given up. -/
def orStop {α : Type} (s : Sys) (x : Out α) (k : α → Sys → Res (Verdict × Sys)) : Res (Verdict × Sys) := Res.bind x fun
  | none => .ok (.stopped, s)
  | some (a, s) => k a s

/-- wr_genloop, Reasoner/rgenloop.c lines 74-199, with wr_pick_given_cl, lines 202-232; nothing is ever put on `clpickstack`. -/
def genloop (cfg : Cfg) : Nat → Sys → Res (Verdict × Sys)
  | 0, _ => .out
  | f + 1, s => match s.passive with
    | [] => .ok (.finished, s)
    | c :: rest => (givenSubsumed s.b.mem c s.active s.b.st).bind fun r =>
      let s := { s with passive := rest, b := { s.b with st := r.2 } }
      if r.1 then genloop cfg f s
      else orStop s (processGiven cfg f s c) fun given s =>
        orStop s (addActive cfg f s given) fun _ s =>
          orStop s (resolveAll cfg f s given) fun p s => if p then .ok (.proof, s) else genloop cfg f s

/-- After wr_init_active_passive_lists_std, Reasoner/rmain.c lines 145-173: all clauses of the database are put in the queue, in the order
of the database; nothing is active. `use_comp_funs` is 1, glb.c line 124. Records from `next` on are new. -/
def Sys.init (M : Mem) (next : Nat) (cs : List Clause) : Sys :=
  ⟨⟨M, next, .clear, 0⟩, true, .wild, [], 0, cs, [], [], []⟩

/-- wg_run_reasoner, Reasoner/rmain.c lines 65-103: in the end wr_glb_free (glb.c lines 302-313, 364-392) frees the four buffers, that must
not have been freed before. -/
def run (cfg : Cfg) (f : Nat) (M : Mem) (next : Nat) (cs : List Clause) : Res Verdict :=
  (genloop cfg f (.init M next cs)).bind fun r =>
    if Buf.given ∈ r.2.freed ∨ Buf.active ∈ r.2.freed ∨ Buf.derived ∈ r.2.freed ∨ Buf.queue ∈ r.2.freed then .bad else .ok r.1

end WG.Reason
