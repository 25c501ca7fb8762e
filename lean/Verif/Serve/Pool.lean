import Mathlib.Tactic.ByContra

/-!
# The server: the thread pool

run_server (the thread that accepts connections) and the start of handle_http (the threads that serve them), Server/dserve_net.c, with the ring of connections between them, the mutex and
the condition variable. Every access to the ring is a step of its own; steps of the threads are interleaved in any order. `pthread_cond_wait` may return without a signal, as POSIX allows.
Simplifications: `shutdown` stays 0 (only the signal handler in Server/dserve_util.c line 1125 sets it, when the server ends), and pthread functions do not fail.
-/
namespace WG.Serve.Pool

/-- A connection: the number that `accept` returns. -/
abbrev Conn := Nat

/-- Where the thread that accepts is, Server/dserve_net.c lines 169-221. -/
inductive APc
  /-- in `accept`, line 170 -/
  | idle
  /-- has a connection, before the lock in line 175 -/
  | have_ (c : Conn)
  /-- has the mutex, before the test in line 187 -/
  | test (c : Conn)
  /-- before line 197 -/
  | room (c : Conn)
  /-- before line 201 -/
  | wrote (c : Conn)
  /-- before line 202 -/
  | tailed (c : Conn)
  /-- before the signal in line 205 -/
  | signal
  /-- before the unlock in line 211 -/
  | leave
deriving DecidableEq

/-- Where a thread of the pool is, Server/dserve_net.c lines 378-423. -/
inductive WPc
  /-- before the lock in line 388 -/
  | want
  /-- has the mutex, before the test in line 389 -/
  | test
  /-- in `pthread_cond_wait`, line 390 -/
  | sleep
  /-- woken up, waits for the mutex -/
  | woken
  /-- before line 405 -/
  | take
  /-- before lines 416-417 -/
  | read (c : Conn)
  /-- before line 418 -/
  | headed (c : Conn)
  /-- before the unlock in line 421 -/
  | took (c : Conn)
  /-- serves the connection, lines 425-603 -/
  | serve (c : Conn)
deriving DecidableEq

/-- Who has the mutex. -/
inductive Owner
  | main | worker (i : Nat)
deriving DecidableEq

/-- struct common_data, Server/dserve.h lines 418-430, the places of the threads, and what has happened so far: the connections accepted, those put into the ring, those not put because it was full, and
those taken out with the thread that took them. -/
structure St where
  queue : Nat → Conn
  head : Nat
  tail : Nat
  count : Nat
  mutex : Option Owner
  acc : APc
  pc : Nat → WPc
  accepted : List Conn
  arrived : List Conn
  dropped : List Conn
  taken : List (Nat × Conn)

/-- Server/dserve_net.c lines 116-165. -/
def init : St := ⟨fun _ => 0, 0, 0, 0, none, .idle, fun _ => .want, [], [], [], []⟩

/-- A value of a function changed. -/
def upd {α : Type} (f : Nat → α) (i : Nat) (x : α) : Nat → α := fun j => if j = i then x else f j

/-- Server/dserve_net.c lines 184-185 and 416-417: the next place in a ring of `size` places. -/
def next (size k : Nat) : Nat := if k + 1 = size then 0 else k + 1

/-- A step of a pool of `n` threads with a ring of `size` places. -/
inductive Step (n size : Nat) : St → St → Prop
  /-- line 170 -/
  | accept (s c) : s.acc = .idle → Step n size s { s with acc := .have_ c, accepted := s.accepted ++ [c] }
  /-- line 175 -/
  | lock (s c) : s.acc = .have_ c → s.mutex = none → Step n size s { s with acc := .test c, mutex := some .main }
  /-- lines 187-191: the ring is full -/
  | full (s c) : s.acc = .test c → s.count = size → Step n size s { s with acc := .leave, dropped := s.dropped ++ [c] }
  /-- line 187 -/
  | room (s c) : s.acc = .test c → s.count ≠ size → Step n size s { s with acc := .room c }
  /-- line 197 -/
  | write (s c) : s.acc = .room c → Step n size s { s with acc := .wrote c, queue := upd s.queue s.tail c }
  /-- line 201 -/
  | tail (s c) : s.acc = .wrote c → Step n size s { s with acc := .tailed c, tail := next size s.tail }
  /-- line 202 -/
  | count (s c) : s.acc = .tailed c → Step n size s { s with acc := .signal, count := s.count + 1, arrived := s.arrived ++ [c] }
  /-- line 205: one of the threads that sleep is woken up -/
  | signal (s i) : s.acc = .signal → i < n → s.pc i = .sleep → Step n size s { s with acc := .leave, pc := upd s.pc i .woken }
  /-- line 205: nobody sleeps -/
  | noSignal (s) : s.acc = .signal → (∀ i, i < n → s.pc i ≠ .sleep) → Step n size s { s with acc := .leave }
  /-- line 211 -/
  | unlock (s) : s.acc = .leave → Step n size s { s with acc := .idle, mutex := none }
  /-- line 388 -/
  | wLock (s i) : i < n → s.pc i = .want → s.mutex = none → Step n size s { s with pc := upd s.pc i .test, mutex := some (.worker i) }
  /-- lines 389-390: the mutex is given up -/
  | wSleep (s i) : i < n → s.pc i = .test → s.count = 0 → Step n size s { s with pc := upd s.pc i .sleep, mutex := none }
  /-- `pthread_cond_wait` may return without a signal -/
  | wSpurious (s i) : i < n → s.pc i = .sleep → Step n size s { s with pc := upd s.pc i .woken }
  /-- `pthread_cond_wait` takes the mutex again, and the test is repeated -/
  | wWake (s i) : i < n → s.pc i = .woken → s.mutex = none → Step n size s { s with pc := upd s.pc i .test, mutex := some (.worker i) }
  /-- line 389 -/
  | wTake (s i) : i < n → s.pc i = .test → s.count ≠ 0 → Step n size s { s with pc := upd s.pc i .take }
  /-- line 405 -/
  | wRead (s i) : i < n → s.pc i = .take → Step n size s { s with pc := upd s.pc i (.read (s.queue s.head)) }
  /-- lines 416-417 -/
  | wHead (s i c) : i < n → s.pc i = .read c → Step n size s { s with pc := upd s.pc i (.headed c), head := next size s.head }
  /-- line 418 -/
  | wCount (s i c) : i < n → s.pc i = .headed c → Step n size s { s with pc := upd s.pc i (.took c), count := s.count - 1, taken := s.taken ++ [(i, c)] }
  /-- line 421 -/
  | wUnlock (s i c) : i < n → s.pc i = .took c → Step n size s { s with pc := upd s.pc i (.serve c), mutex := none }
  /-- the connection is served -/
  | wDone (s i c) : i < n → s.pc i = .serve c → Step n size s { s with pc := upd s.pc i .want }

/-- States that are reached with any interleaving. -/
inductive Reach (n size : Nat) : St → Prop
  | init : Reach n size init
  | step {s t} : Reach n size s → Step n size s t → Reach n size t

end WG.Serve.Pool
