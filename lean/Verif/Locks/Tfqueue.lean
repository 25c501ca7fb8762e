import Verif.Locks.Common
/-!
# Task-fair queue lock

Model of `db_tfqueue_wlock`, `db_tfqueue_wulock`, `db_tfqueue_rlock`, `db_tfqueue_rulock` (Db/dblock.c lines
983-1229) with the queue nodes, their links and the node allocator.

Simplifications: the sections between `lock_queue` and `unlock_queue` are single steps (the queue mutex is
the compare-and-swap lock of lines 926-976, whose exclusion is `C34_queue_mutex`); the free list of nodes is
a list (`alloc_lock`/`free_lock`, lines 1379-1400, use it as a stack); node fields are read at the start of a
section.  `tick` and `clock` are not in the program: they record the order of arrival for the statements.
-/
namespace WG

/-- LOCKQ_READ, LOCKQ_WRITE (lines 79-80). -/
inductive QCls where
  | read | write
deriving DecidableEq, Repr

/-- `lock_queue_node`, Db/dblock.h lines 55-64. Offset 0 is "none". -/
structure QNode where
  cls : QCls
  waiting : Bool
  next : Nat
  prev : Nat
  tick : Nat

/-- The shared memory of the lock: queue nodes, `dbh->locks.tail` and the free nodes. -/
structure QMem where
  nodes : Nat → QNode
  tail : Nat
  free : List Nat
  clock : Nat

/-- Assignment to fields of the node at `a`. -/
def QMem.upd (m : QMem) (a : Nat) (f : QNode → QNode) : QMem :=
  { m with nodes := fun x => if x = a then f (m.nodes a) else m.nodes x }

/-- The queue section of wlock (lines 1006-1025) and rlock (lines 1118-1141). `none`: ALLOC_LOCK fails. -/
def QMem.enqueue (m : QMem) (c : QCls) : Option (Nat × QMem) :=
  match m.free with
  | [] => none
  | a :: rest =>
    let prev := m.tail
    let m1 := { m with free := rest, tail := a, clock := m.clock + 1 }
    let m2 := m1.upd a (fun n => { n with cls := c, prev := prev, next := 0, tick := m.clock })
    if prev ≠ 0 then
      let m3 := m2.upd prev (fun p => { p with next := a })
      let w := match c with
        | .write => true
        | .read => !((m3.nodes prev).cls == .read && !(m3.nodes prev).waiting)
      some (a, m3.upd a (fun n => { n with waiting := w }))
    else
      some (a, m2.upd a (fun n => { n with waiting := false }))

/-- `free_lock`, lines 1392-1397. -/
def QMem.freeNode (m : QMem) (a : Nat) : QMem := { m with free := a :: m.free }

/-- The queue section of wulock (lines 1068-1078); the result is `syn_addr`. -/
def QMem.wunlock (m : QMem) (a : Nat) : QMem × Option Nat :=
  let n := m.nodes a
  if n.next ≠ 0 then
    ((m.upd n.next (fun x => { x with waiting := false, prev := 0 })).freeNode a, some n.next)
  else if m.tail = a then (({ m with tail := 0 } : QMem).freeNode a, none)
  else (m.freeNode a, none)

/-- Unlinking from the queue: `DEQUEUE_LOCK`, lines 157-167; the same in rulock (lines 1202-1218). -/
def QMem.unlink (m : QMem) (a : Nat) : QMem :=
  let n := m.nodes a
  let m1 := if n.prev ≠ 0 then m.upd n.prev (fun x => { x with next := n.next }) else m
  if n.next ≠ 0 then m1.upd n.next (fun x => { x with prev := n.prev })
  else if m1.tail = a then { m1 with tail := n.prev } else m1

/-- The queue section of rulock (lines 1202-1218). -/
def QMem.runlock (m : QMem) (a : Nat) : QMem × Option Nat :=
  let n := m.nodes a
  let m1 := m.unlink a
  if n.next ≠ 0 ∧ (m1.nodes n.next).waiting = true ∧ (n.prev = 0 ∨ (m1.nodes n.next).cls = .read) then
    ((m1.upd n.next (fun x => { x with waiting := false })).freeNode a, some n.next)
  else (m1.freeNode a, none)

/-- The queue section of rlock after waking up (lines 1162-1170). -/
def QMem.cascade (m : QMem) (a : Nat) : QMem × Option Nat :=
  let n := m.nodes a
  if n.next ≠ 0 ∧ (m.nodes n.next).cls = .read ∧ (m.nodes n.next).waiting = true then
    (m.upd n.next (fun x => { x with waiting := false }), some n.next)
  else (m, none)

/-- The queue section after a time out (lines 1032-1035, 1149-1152). -/
def QMem.timeout (m : QMem) (a : Nat) : QMem := (m.unlink a).freeNode a

/-- Where a process is; `c` is the kind of the call, `a` its queue node. -/
inductive QPc where
  | idle
  /-- after the queue section, before testing `lockp->waiting` (lines 1027, 1143) -/
  | check (c : QCls) (a : Nat)
  /-- before the kernel compares `waiting` with 1 in futex_wait -/
  | fwait (c : QCls) (a : Nat)
  /-- sleeping in futex_wait -/
  | sleep (c : QCls) (a : Nat)
  /-- futex_wait has returned ETIMEDOUT, before the queue section -/
  | timedOut (c : QCls) (a : Nat)
  /-- futex_wait has returned otherwise -/
  | woke (c : QCls) (a : Nat)
  /-- the lock call has returned `a` -/
  | hold (c : QCls) (a : Nat)
  /-- in an unlock call, before `futex_wake(b)` -/
  | wakeIdle (b : Nat)
  /-- in rlock, before `futex_wake(b)`; then returns `a` -/
  | wakeHold (b a : Nat)
deriving DecidableEq, Repr

structure QState where
  m : QMem
  pcs : List QPc

/-- Continuation of an unlock call: wake the next one if needed. -/
def QPc.afterUnlock : Option Nat → QPc
  | some b => .wakeIdle b
  | none => .idle

/-- Continuation of rlock after the section of lines 1162-1170. -/
def QPc.afterCascade (a : Nat) : Option Nat → QPc
  | some b => .wakeHold b a
  | none => .hold .read a

/-- Steps. With `strict` three kinds of steps are left out: a spurious return of futex_wait, a futex_wake that
reaches a process whose node is (again) waiting, and a time out section executed when the node has already
been granted the lock. -/
inductive QStep (strict : Bool) : QState → QState → Prop
  | enqueue (s : QState) (i : Nat) (c : QCls) (a : Nat) (m' : QMem) : s.pcs[i]? = some .idle →
      s.m.enqueue c = some (a, m') → QStep strict s ⟨m', s.pcs.set i (.check c a)⟩
  | granted (s : QState) (i : Nat) (c : QCls) (a : Nat) : s.pcs[i]? = some (.check c a) →
      (s.m.nodes a).waiting = false → QStep strict s ⟨s.m, s.pcs.set i (.hold c a)⟩
  | mustWait (s : QState) (i : Nat) (c : QCls) (a : Nat) : s.pcs[i]? = some (.check c a) →
      (s.m.nodes a).waiting = true → QStep strict s ⟨s.m, s.pcs.set i (.fwait c a)⟩
  | goSleep (s : QState) (i : Nat) (c : QCls) (a : Nat) : s.pcs[i]? = some (.fwait c a) →
      (s.m.nodes a).waiting = true → QStep strict s ⟨s.m, s.pcs.set i (.sleep c a)⟩
  | wouldBlock (s : QState) (i : Nat) (c : QCls) (a : Nat) : s.pcs[i]? = some (.fwait c a) →
      (s.m.nodes a).waiting = false → QStep strict s ⟨s.m, s.pcs.set i (.woke c a)⟩
  | spurious (s : QState) (i : Nat) (c : QCls) (a : Nat) : strict = false → s.pcs[i]? = some (.sleep c a) →
      QStep strict s ⟨s.m, s.pcs.set i (.woke c a)⟩
  | timesOut (s : QState) (i : Nat) (c : QCls) (a : Nat) : s.pcs[i]? = some (.sleep c a) →
      QStep strict s ⟨s.m, s.pcs.set i (.timedOut c a)⟩
  | timeout (s : QState) (i : Nat) (c : QCls) (a : Nat) : s.pcs[i]? = some (.timedOut c a) →
      (strict = true → (s.m.nodes a).waiting = true) → QStep strict s ⟨s.m.timeout a, s.pcs.set i .idle⟩
  | wReturn (s : QState) (i : Nat) (a : Nat) : s.pcs[i]? = some (.woke .write a) →
      QStep strict s ⟨s.m, s.pcs.set i (.hold .write a)⟩
  | rCascade (s : QState) (i : Nat) (a : Nat) : s.pcs[i]? = some (.woke .read a) →
      QStep strict s ⟨(s.m.cascade a).1, s.pcs.set i (.afterCascade a (s.m.cascade a).2)⟩
  | wUnlock (s : QState) (i : Nat) (a : Nat) : s.pcs[i]? = some (.hold .write a) →
      QStep strict s ⟨(s.m.wunlock a).1, s.pcs.set i (.afterUnlock (s.m.wunlock a).2)⟩
  | rUnlock (s : QState) (i : Nat) (a : Nat) : s.pcs[i]? = some (.hold .read a) →
      QStep strict s ⟨(s.m.runlock a).1, s.pcs.set i (.afterUnlock (s.m.runlock a).2)⟩
  /-- futex_wake(b) finds a sleeper -/
  | wakeIdle (s : QState) (i j : Nat) (b : Nat) (c : QCls) : s.pcs[i]? = some (.wakeIdle b) →
      s.pcs[j]? = some (.sleep c b) → (strict = true → (s.m.nodes b).waiting = false) →
      QStep strict s ⟨s.m, (s.pcs.set j (.woke c b)).set i .idle⟩
  | wakeHold (s : QState) (i j : Nat) (b a : Nat) (c : QCls) : s.pcs[i]? = some (.wakeHold b a) →
      s.pcs[j]? = some (.sleep c b) → (strict = true → (s.m.nodes b).waiting = false) →
      QStep strict s ⟨s.m, (s.pcs.set j (.woke c b)).set i (.hold .read a)⟩
  /-- futex_wake(b) finds nobody sleeping on b -/
  | wakeIdleNone (s : QState) (i : Nat) (b : Nat) : s.pcs[i]? = some (.wakeIdle b) →
      (∀ (j : Nat) (c : QCls), s.pcs[j]? ≠ some (.sleep c b)) → QStep strict s ⟨s.m, s.pcs.set i .idle⟩
  | wakeHoldNone (s : QState) (i : Nat) (b a : Nat) : s.pcs[i]? = some (.wakeHold b a) →
      (∀ (j : Nat) (c : QCls), s.pcs[j]? ≠ some (.sleep c b)) → QStep strict s ⟨s.m, s.pcs.set i (.hold .read a)⟩

/-- The state after `wg_init_locks` (lines 1251-1265) with nodes 1..k. -/
def QMem.init (k : Nat) : QMem :=
  ⟨fun _ => ⟨.read, false, 0, 0, 0⟩, 0, (List.range k).map (· + 1), 0⟩

inductive QReach (strict : Bool) (n k : Nat) : QState → Prop
  | init : QReach strict n k ⟨.init k, List.replicate n .idle⟩
  | step {s s'} : QReach strict n k s → QStep strict s s' → QReach strict n k s'

end WG
