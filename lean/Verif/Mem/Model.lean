/-! Model of permission handling in Db/dbmem.c. -/
namespace WG

/-- `normalize_perms`, Db/dbmem.c lines 177-187. `int` is 32 bits. -/
def normalizePerms (mode : BitVec 32) : BitVec 32 :=
  let mode := mode &&& 0o666#32
  let mode := mode ||| 0o600#32
  let mode := if mode &&& 0o060#32 ≠ 0o060#32 then mode &&& 0o606#32 else mode
  if mode &&& 0o006#32 ≠ 0o006#32 then mode &&& 0o660#32 else mode

end WG
