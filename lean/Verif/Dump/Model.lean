import Verif.Dump.Crc
/-!
# Dump files

Model of `Db/dbdump.c` (wg_dump, wg_check_dump, wg_import_dump) and of `wg_check_header_compat`
(`Db/dbmem.c` lines 472-499).  A memory segment and a file are lists of bytes; little-endian machine.
The file system is reduced to the contents of the one file; fopen/malloc failures are not modelled.
Locking is not modelled here (see `Verif.Dump.Concurrent`).
-/
namespace WG

/-- Byte `i` of a segment or file (0 beyond the end; all uses are within bounds under the theorems'
hypotheses). -/
def byteAt (l : List Byte) (i : Nat) : Byte := l.getD i 0#8

/-- Little-endian 32-bit load. -/
def le32 (l : List Byte) (off : Nat) : BitVec 32 :=
  byteAt l (off+3) ++ byteAt l (off+2) ++ byteAt l (off+1) ++ byteAt l off

/-- Little-endian 64-bit load. -/
def le64 (l : List Byte) (off : Nat) : BitVec 64 := le32 l (off+4) ++ le32 l off

/-- Bytes of a 32-bit word. -/
def bytes32 (w : BitVec 32) : List Byte :=
  [w.setWidth 8, (w >>> 8).setWidth 8, (w >>> 16).setWidth 8, (w >>> 24).setWidth 8]

/-- Bytes of a 64-bit word. -/
def bytes64 (w : BitVec 64) : List Byte := bytes32 (w.setWidth 32) ++ bytes32 ((w >>> 32).setWidth 32)

/-- Overwrite part of a segment or file. -/
def patch (l : List Byte) (off : Nat) (bs : List Byte) : List Byte :=
  l.take off ++ bs ++ l.drop (off + bs.length)

/-- Offsets of header fields, `db_memsegment_header`, Db/dballoc.h lines 464-505: mark 0, version 4,
features 8, checksum 12, size 16, free 24.  The remaining offsets depend on the compile-time sizes of the
area headers and are left symbolic. -/
structure Layout where
  hdrSize : Nat
  /-- `extdbs.count` -/
  extCount : Nat
  /-- `locks.global_lock` (holds the offset of the lock word) -/
  glField : Nat
  /-- `locks.writers` -/
  wrField : Nat

def hMark (l : List Byte) : BitVec 32 := le32 l 0
def hVersion (l : List Byte) : BitVec 32 := le32 l 4
def hFeatures (l : List Byte) : BitVec 32 := le32 l 8
def hChecksum (l : List Byte) : BitVec 32 := le32 l 12
def hSize (l : List Byte) : BitVec 64 := le64 l 16
def hFree (l : List Byte) : BitVec 64 := le64 l 24

/-- `MEMSEGMENT_MAGIC_MARK`, Db/dballoc.h line 145. -/
def magicMark : BitVec 32 := 1232319011#32

/-- `wg_check_header_compat`, Db/dbmem.c lines 472-499; `ver`, `feat` are `MEMSEGMENT_VERSION` and
`MEMSEGMENT_FEATURES` of the running executable. -/
def checkHeaderCompat (ver feat : BitVec 32) (h : List Byte) : Int :=
  if hMark h ≠ magicMark then
    if byteAt (bytes32 magicMark) 0 = byteAt h 3 ∧ byteAt (bytes32 magicMark) 1 = byteAt h 2 ∧
       byteAt (bytes32 magicMark) 2 = byteAt h 1 ∧ byteAt (bytes32 magicMark) 3 = byteAt h 0
    then -2 else -1
  else if hVersion h ≠ ver then -3
  else if hFeatures h ≠ feat then -4
  else 0

/-- File contents produced by `wg_dump_internal`, Db/dbdump.c lines 85-181: the used area with the CRC of
the used area written over the checksum field. -/
def dump (img : List Byte) : List Byte :=
  let dbsize := (hFree img).toNat
  let crc := updateCrc (img.take dbsize) 0#32
  patch (img.take dbsize) 12 (bytes32 crc)

/-- `BUFSIZE`, Db/dbdump.c line 188. -/
def bufSize : Nat := 8192

/-- The read loop of `wg_check_dump`, Db/dbdump.c lines 246-249, after the first buffer. -/
def crcLoop (rest : List Byte) (crc : BitVec 32) (filesize : Nat) : BitVec 32 × Nat :=
  if h : rest = [] then (crc, filesize)
  else crcLoop (rest.drop bufSize) (updateCrc (rest.take bufSize) crc)
    (filesize + (rest.take bufSize).length)
termination_by rest.length
decreasing_by
  have : 0 < rest.length := List.length_pos_iff.2 h
  simp only [List.length_drop, bufSize]; omega

/-- `wg_check_dump`, Db/dbdump.c lines 200-268. -/
def checkDump (ver feat : BitVec 32) (file : List Byte) : Int :=
  if file.length < bufSize then -1
  else
    let buf := file.take bufSize
    if checkHeaderCompat ver feat buf ≠ 0 then -2
    else
      let minsize := (hFree buf).toInt
      let dumpCrc := hChecksum buf
      let buf0 := patch buf 12 [0#8, 0#8, 0#8, 0#8]
      let r := crcLoop (file.drop bufSize) (updateCrc buf0 0#32) bufSize
      if (r.2 : Int) ≠ minsize then -3
      else if r.1 ≠ dumpCrc then -3
      else 0

/-- `wg_init_locks`, Db/dblock.c lines 1237-1271 (spin lock protocols): clears the two lock words. -/
def initLocks (L : Layout) (img : List Byte) : List Byte :=
  let img := patch img (le64 img L.glField).toNat (bytes64 0#64)
  patch img (le64 img L.wrField).toNat (bytes64 0#64)

/-- `wg_import_dump`, Db/dbdump.c lines 279-357, on the current segment `img`. A short read
(`err = -2`) leaves the segment in an undetermined state: `none`. -/
def importDump (L : Layout) (img file : List Byte) : Int × Option (List Byte) :=
  if file.length < L.hdrSize then (-1, some img)
  else if le64 file L.extCount ≠ 0#64 then (-1, some img)
  else
    let dbsize := (hFree file).toInt
    if (hSize img).toInt < dbsize then (-1, some img)
    else if dbsize > 0 then
      let newsize := hSize img
      if file.length < dbsize.toNat then (-2, none)
      else
        let m := file.take dbsize.toNat ++ img.drop dbsize.toNat
        let m := patch m 16 (bytes64 newsize)
        let m := patch m 12 (bytes32 0#32)
        (0, some (initLocks L m))
    else (-1, some img)

end WG
