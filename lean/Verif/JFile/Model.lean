import Verif.Journal.Model
import Verif.Json.Model
/-!
# The journal files

Model of the part of `Db/dblog.c` (compiled with USE_DBLOG) that opens, continues, rotates and writes the journal files,
and of what `Db/dbdump.c` does to the journal.  One database with any number of attached handles (processes) is modelled
together with a file system: a directory that maps names to files, and open descriptors that refer to files, not to
names.  Every call is one step, as the write lock of the database makes it.  What the operating system answers in the
course of one step is given by `Os`.
-/
namespace WG.JFile
open WG.Json (fmtInt digits)

/-- A file name. -/
abbrev Name := List Byte

/-- A file: its bytes and its modification time (seconds). -/
structure File where
  bytes : List Byte
  mtime : Nat

/-- The file system: names of files, the files themselves by number, and the first unused number. Permissions, links and
directories are left out. -/
structure Fs where
  dir : Name → Option Nat
  files : Nat → File
  next : Nat

/-- The value of `db_handle_logdata.fd`: negative, a descriptor of a file, or the number of a descriptor that was closed. -/
inductive Fd where
  | none
  | opn (file : Nat)
  | closed
  deriving DecidableEq

/-- `db_handle_logdata`, Db/dblog.h lines 53-58, without the umask. -/
structure Handle where
  fd : Fd
  serial : Nat

/-- The database as far as the journal is concerned: `key` and `logging` of the segment header (Db/dballoc.h), the
attached handles, and the file system. `serial` does not overflow. -/
structure St where
  key : Int
  active : Bool
  dirty : Bool
  serial : Nat
  handles : Nat → Option Handle
  fs : Fs

/-- What the operating system answers during one call. -/
structure Os where
  /-- `stat` of the journal does not fail if the file exists -/
  stat : Bool := true
  /-- `stat` of backup `i` does not fail for another reason than that there is no such file -/
  statBak : Nat → Bool := fun _ => true
  rename : Bool := true
  opn : Bool := true
  read : Bool := true
  /-- how many bytes `write` takes at most -/
  accept : Nat := 1000000
  /-- the file that a closed descriptor number refers to by now -/
  reuse : Option Nat := none
  /-- the time -/
  now : Nat := 1

def upd {α β : Type} [DecidableEq α] (f : α → β) (a : α) (b : β) : α → β := fun x => if x = a then b else f x

/-- WG_JOURNAL_MAGIC, Db/dblog.h line 39. -/
def magic : List Byte := [119#8, 103#8, 100#8, 98#8]

/-- `wg_journal_filename`, Db/dblog.c lines 687-700; `base` is WG_JOURNAL_FILENAME, and the buffer has
`sizeof(WG_JOURNAL_FILENAME) + 20` bytes (Db/dblog.h line 37). -/
def journalName (base : Name) (key : Int) : Name := (base ++ 46#8 :: fmtInt key).take (base.length + 20)

/-- The name of backup `i`, Db/dblog.c lines 175-176 and 196-197. -/
def backupName (base : Name) (key : Int) (i : Nat) : Name :=
  (journalName base key ++ 46#8 :: digits i).take (base.length + 30)

/-- The loop of `backup_journal`, Db/dblog.c lines 169-190, with `n` rounds to go. -/
def pickBackup (os : Os) (fs : Fs) (base : Name) (key : Int) : (n i oldest logidx : Nat) → Nat
  | 0, _, _, logidx => logidx
  | n + 1, i, oldest, logidx =>
    if os.statBak i = false then pickBackup os fs base key n (i + 1) oldest logidx
    else match fs.dir (backupName base key i) with
      | none => i
      | some f =>
        if oldest = 0 ∨ oldest > (fs.files f).mtime then pickBackup os fs base key n (i + 1) (fs.files f).mtime i
        else pickBackup os fs base key n (i + 1) oldest logidx

/-- POSIX `rename`: the file gets the new name; a file that had this name loses it. -/
def Fs.rename (fs : Fs) (a b : Name) : Fs := { fs with dir := upd (upd fs.dir b (fs.dir a)) a none }

/-- `backup_journal`, Db/dblog.c lines 163-207. Result `false`: failed. -/
def backupJournal (base : Name) (os : Os) (s : St) : St × Bool :=
  if os.rename then
    ({ s with
       fs := s.fs.rename (journalName base s.key) (backupName base s.key (pickBackup os s.fs base s.key 10 0 0 0))
       serial := s.serial + 1 }, true)
  else (s, false)

/-- The `open` call of `open_journal`, Db/dblog.c lines 247-254 (O_APPEND: all writing is at the end). -/
def openFile (base : Name) (os : Os) (create : Bool) (s : St) : St × Option Nat :=
  if os.opn then
    match s.fs.dir (journalName base s.key) with
    | some f => (s, some f)
    | none =>
      if create then
        ({ s with fs := { dir := upd s.fs.dir (journalName base s.key) (some s.fs.next)
                          files := upd s.fs.files s.fs.next ⟨[], os.now⟩
                          next := s.fs.next + 1 } }, some s.fs.next)
      else (s, none)
  else (s, none)

/-- `open_journal`, Db/dblog.c lines 213-263. -/
def openJournal (base : Name) (os : Os) (create : Bool) (s : St) : St × Option Nat :=
  if create = true ∧ s.dirty = false ∧ os.stat = true ∧ (s.fs.dir (journalName base s.key)).isSome = true then
    match backupJournal base os s with
    | (s, true) => openFile base os create s
    | (s, false) => (s, none)
  else openFile base os create s

/-- `check_journal` on a newly opened file, Db/dblog.c lines 138-152; `true`: good. -/
def checkJournal (os : Os) (f : File) : Bool := os.read && f.bytes.take 4 == magic

/-- `write` on a file opened with O_APPEND: some of the bytes arrive at the end of the file. -/
def append (os : Os) (fs : Fs) (f : Nat) (buf : List Byte) : Fs :=
  { fs with files := upd fs.files f ⟨(fs.files f).bytes ++ buf.take os.accept, os.now⟩ }

/-- `wg_start_logging`, Db/dblog.c lines 780-836. `ftruncate` does not fail. -/
def startLogging (base : Name) (os : Os) (s : St) : St × Int :=
  if s.active then (s, -1)
  else match openJournal base os true s with
    | (s, none) => (s, -2)
    | (s, some f) =>
      if s.dirty = false then
        let s := { s with fs := append os { s.fs with files := upd s.fs.files f ⟨[], os.now⟩ } f magic }
        if os.accept < 4 then (s, -3) else ({ s with active := true }, 0)
      else if checkJournal os (s.fs.files f) then ({ s with active := true }, 0)
      else (s, -2)

/-- `wg_stop_logging`, Db/dblog.c lines 843-858. -/
def stopLogging (s : St) : St × Int := if s.active then ({ s with active := false }, 0) else (s, -1)

/-- The first half of `write_log_buffer`, Db/dblog.c lines 947-975: a descriptor for the current journal. -/
def getFd (base : Name) (os : Os) (s : St) (h : Handle) : Handle :=
  let h := if h.fd ≠ .none ∧ h.serial ≠ s.serial then { h with fd := .none } else h
  if h.fd = .none then
    match (openJournal base os false s).2 with
    | none => h
    | some f => if checkJournal os (s.fs.files f) then ⟨.opn f, s.serial⟩ else h
  else h

/-- `write_log_buffer`, Db/dblog.c lines 941-990. After an error the descriptor is closed, but its number stays in the
handle (JOURNAL_FAIL, lines 76-78); writing to a closed descriptor fails, or reaches the file that has got this number. -/
def writeLogBuffer (base : Name) (os : Os) (s : St) (n : Nat) (h : Handle) (buf : List Byte) : St × Int :=
  let h := getFd base os s h
  let s := { s with handles := upd s.handles n (some h) }
  match h.fd with
  | .none => (s, -1)
  | .opn f =>
    let s := { s with dirty := true, fs := append os s.fs f buf }
    if os.accept < buf.length then ({ s with handles := upd s.handles n (some { h with fd := .closed }) }, -5) else (s, 0)
  | .closed =>
    match os.reuse with
    | none => ({ s with dirty := true }, -5)
    | some f =>
      let s := { s with dirty := true, fs := append os s.fs f buf }
      if os.accept < buf.length then (s, -5) else (s, 0)

/-- A logging call as the functions of the database make it: only if logging is active (e.g. Db/dbdata.c lines 158-161). -/
def logCall (base : Name) (os : Os) (s : St) (n : Nat) (buf : List Byte) : St × Int :=
  if s.active then
    match s.handles n with
    | some h => writeLogBuffer base os s n h buf
    | none => (s, -1)
  else (s, 0)

/-- The effect of `wg_dump` on the journal, Db/dbdump.c lines 104-110, 130-134, 161-167; `opened`: the dump file can be opened and the lock is
granted; `written`: it is written completely. Releasing the lock does not fail. -/
def dump (base : Name) (os : Os) (s : St) (opened written : Bool) : St × Int :=
  if opened = false then (s, -1)
  else
    let err : Int := if written then 0 else -1
    if s.active then
      match startLogging base os { (stopLogging s).1 with dirty := false } with
      | (s, r) => (s, if r = 0 then err else -2)
    else (s, err)

/-- The effect of `wg_import_dump` on the journal, Db/dbdump.c lines 286, 325-356; `image` is the key and the serial number in the
header of the dump, which replaces the header of the database but for `size` and `checksum`; `none` if the dump is not read at all. Failing in the middle of reading (result -2, database in undetermined state) is left out. -/
def importDump (base : Name) (os : Os) (s : St) (image : Option (Int × Nat)) : St × Int :=
  match image with
  | none => (s, -1)
  | some (key, serial) =>
    let active := s.active
    let s := { s with key := key, serial := serial, dirty := false, active := false }
    if active then
      match startLogging base os s with
      | (s, r) => (s, if r = 0 then 0 else -2)
    else (s, 0)

/-- The effect of `wg_replay_log` on the journal, Db/dblog.c lines 870-935; `table`: the table of translations can be created;
`restored`: the entries can be restored (this is C39, C40). -/
def replayLog (base : Name) (os : Os) (s : St) (name : Name) (table restored : Bool) : St × Int :=
  match (if os.opn then s.fs.dir name else none) with
  | none => (s, -1)
  | some f =>
    if checkJournal os (s.fs.files f) = false then (s, -1)
    else
      let active := s.active
      let s := { s with active := false }
      if table = false then (s, -1)
      else if restored = false then (s, -2)
      else
        let s := { s with dirty := false }
        if active then
          match startLogging base os s with
          | (s, r) => (s, if r = 0 then 0 else -2)
        else (s, 0)

/-- The calls that concern the journal. -/
inductive Call where
  /-- `wg_attach_database`: `wg_init_handle_logdata`, Db/dblog.c lines 705-717 -/
  | attach (n : Nat)
  /-- `wg_detach_database`: `wg_cleanup_handle_logdata`, Db/dblog.c lines 722-738 -/
  | detach (n : Nat)
  | start
  | stop
  | log (n : Nat) (buf : List Byte)
  | dump (opened written : Bool)
  | imp (image : Option (Int × Nat))
  | replay (name : Name) (table restored : Bool)

/-- One call. -/
def call (base : Name) (os : Os) (s : St) : Call → St × Int
  | .attach n => ({ s with handles := upd s.handles n (some ⟨.none, 0⟩) }, 0)
  | .detach n => ({ s with handles := upd s.handles n none }, 0)
  | .start => startLogging base os s
  | .stop => stopLogging s
  | .log n buf => logCall base os s n buf
  | .dump opened written => dump base os s opened written
  | .imp image => importDump base os s image
  | .replay name table restored => replayLog base os s name table restored

/-- A sequence of calls and their results. -/
def calls (base : Name) (s : St) : List (Os × Call) → St × List Int
  | [] => (s, [])
  | (os, c) :: cs =>
    let (s, r) := call base os s c
    let (s, rs) := calls base s cs
    (s, r :: rs)

end WG.JFile
