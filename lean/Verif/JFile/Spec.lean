import Verif.JFile.Model
/-!
# What users know of the journal

The journal as an abstract machine: whether logging is active, whether something has been logged since the last dump, import
or replay, and the bytes logged.
-/
namespace WG.JFile.Spec

/-- The journal. `log` is what has been logged in the current journal, if there is a good one. -/
structure Journal where
  active : Bool
  dirty : Bool
  log : Option (List Byte)

/-- The journal of a new database. -/
def Journal.init : Journal := ⟨false, false, none⟩

/-- Starting: from a clean state a new journal, else the same journal goes on. -/
inductive Start : Journal → Bool → Journal → Prop
  | new (l) : Start ⟨false, false, l⟩ true ⟨true, false, some []⟩
  | goOn (l) : Start ⟨false, true, l⟩ true ⟨true, true, l⟩
  | failedClean (l) : Start ⟨false, false, l⟩ false ⟨false, false, none⟩
  | failedDirty (l) : Start ⟨false, true, l⟩ false ⟨false, true, l⟩

/-- What each call does to the journal, given its result. -/
inductive Next : Journal → Call → Int → Journal → Prop
  | attach (j n) : Next j (.attach n) 0 j
  | detach (j n) : Next j (.detach n) 0 j
  | startAgain {j} : j.active = true → Next j .start (-1) j
  | started {j j'} : Start j true j' → Next j .start 0 j'
  | notStarted {j j' r} : Start j false j' → r ≠ 0 → Next j .start r j'
  | stop {j} : j.active = true → Next j .stop 0 { j with active := false }
  | stopAgain {j} : j.active = false → Next j .stop (-1) j
  /-- without logging nothing is written -/
  | off {j n b} : j.active = false → Next j (.log n b) 0 j
  /-- success: the whole entry is in the journal -/
  | log {j n b} : j.active = true → Next j (.log n b) 0 { j with dirty := true, log := j.log.map (· ++ b) }
  /-- failure: a part of the entry -/
  | torn {j n b r} (k) : j.active = true → r ≠ 0 → Next j (.log n b) r { j with dirty := true, log := j.log.map (· ++ b.take k) }
  | notLogged {j n b r} : j.active = true → r ≠ 0 → Next j (.log n b) r j
  | noDump (j o w) : Next j (.dump o w) (-1) j
  | dumpOff {j w} : j.active = false → Next j (.dump true w) (if w then 0 else -1) j
  | dump {j j' w} : j.active = true → Start { j with active := false, dirty := false } true j' → Next j (.dump true w) (if w then 0 else -1) j'
  | dumpFailed {j j' w} : j.active = true → Start { j with active := false, dirty := false } false j' → Next j (.dump true w) (-2) j'
  | noImport (j i) : Next j (.imp i) (-1) j
  | importOff {j i} : j.active = false → Next j (.imp i) 0 { j with dirty := false, log := none }
  | imported {j j' i} : j.active = true → Start { j with active := false, dirty := false } true j' → Next j (.imp i) 0 j'
  | importFailed {j j' i} : j.active = true → Start { j with active := false, dirty := false } false j' → Next j (.imp i) (-2) j'
  | noReplay (j f a b) : Next j (.replay f a b) (-1) j
  /-- a failed replay can leave logging off -/
  | replayFailed {j f a b r} : r ≠ 0 → Next j (.replay f a b) r { j with active := false }
  | replayOff {j f a b} : j.active = false → Next j (.replay f a b) 0 { j with dirty := false }
  | replayed {j j' f a b} : j.active = true → Start { j with active := false, dirty := false } true j' → Next j (.replay f a b) 0 j'
  | replayStart {j j' f a b} : j.active = true → Start { j with active := false, dirty := false } false j' → Next j (.replay f a b) (-2) j'

/-- A sequence of calls with their results. -/
inductive Nexts : Journal → List Call → List Int → Journal → Prop
  | nil (j) : Nexts j [] [] j
  | cons {j j' j'' c cs r rs} : Next j c r j' → Nexts j' cs rs j'' → Nexts j (c :: cs) (r :: rs) j''

/-- What the file of a given name contains. -/
def content (fs : Fs) (n : Name) : Option (List Byte) := (fs.dir n).map fun f => (fs.files f).bytes

/-- When it was written to the last time. -/
def mtime (fs : Fs) (n : Name) : Option Nat := (fs.dir n).map fun f => (fs.files f).mtime

/-- A new database (Db/dballoc.c lines 405-407) without handles, whatever files there are. -/
def fresh (key : Int) (fs : Fs) : St := ⟨key, false, false, 1, fun _ => none, fs⟩

/-- Conditions on a call: no descriptor number is used again after it was closed by mistake, and a dump is imported only
while no handle has logged anything since it was attached. -/
def Allowed (s : St) (os : Os) (c : Call) : Prop :=
  os.reuse = none ∧ ∀ i, c = .imp (some i) → ∀ n h, s.handles n = some h → h.fd = .none

/-- The conditions for a sequence of calls. -/
def AllAllowed (base : Name) : St → List (Os × Call) → Prop
  | _, [] => True
  | s, (os, c) :: cs => Allowed s os c ∧ AllAllowed base (call base os s c).1 cs

/-- Calls that go on with a journal: attaching, detaching, stopping, starting, logging. -/
def Plain : Call → Prop
  | .attach _ | .detach _ | .start | .stop | .log _ _ => True
  | _ => False

/-- What is logged by such calls, if logging is (`a`) active before. -/
def logged : Bool → List Call → List Byte
  | _, [] => []
  | _, .start :: cs => logged true cs
  | _, .stop :: cs => logged false cs
  | true, .log _ b :: cs => b ++ logged true cs
  | a, _ :: cs => logged a cs

/-- The file system is in order: no two names for one file, and unused numbers are unused. -/
structure Fs.Ok (fs : Fs) : Prop where
  one : ∀ a b f, fs.dir a = some f → fs.dir b = some f → a = b
  used : ∀ a f, fs.dir a = some f → f < fs.next

/-- A call that only adds to the journal: no other file changes, and the journal keeps what it has. -/
def Grows (base : Name) (key : Int) (fs fs' : Fs) : Prop :=
  (∀ n, n ≠ journalName base key → content fs' n = content fs n) ∧
    ∀ c, content fs (journalName base key) = some c → ∃ d, content fs' (journalName base key) = some (c ++ d)

/-- A call that begins a new journal: the old one becomes one of the ten backups, no other file changes, and if there was a
backup of this name, then there were all ten, and it was the oldest. -/
def Rotates (base : Name) (key : Int) (fs fs' : Fs) : Prop :=
  ∃ i < 10, content fs' (backupName base key i) = content fs (journalName base key) ∧
    (∀ n, n ≠ journalName base key → n ≠ backupName base key i → content fs' n = content fs n) ∧
    ∀ t, mtime fs (backupName base key i) = some t → ∀ k < 10, ∃ u, mtime fs (backupName base key k) = some u ∧ t ≤ u

end WG.JFile.Spec
