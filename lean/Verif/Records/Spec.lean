import Verif.Records.Ops3
/-!
# Specification of the record store

What a user of the API sees: a table of records, each a list of encoded values. Operations, their results and their permitted effects on
the table are described here without reference to backlinks, reference counts, hash chains or indexes.
-/
namespace WG.Recs

/-- API calls. Parameters named `al`, `cell` are what the allocator returns during the call. -/
inductive Op
  /-- wg_create_record, wg_create_array, wg_create_object (`bits`) -/
  | create (len : Int) (bits : Word) (al : Option Word)
  /-- wg_set_field -/
  | set (r : Word) (i : Int) (v : Word) (cell : Option Word)
  /-- wg_set_new_field -/
  | setNew (r : Word) (i : Int) (v : Word) (cell : Option Word)
  /-- wg_delete_record -/
  | delete (r : Word)
  /-- wg_encode_int -/
  | int (v : Word) (al : Option Word)
  /-- wg_encode_double -/
  | double (v : Word) (al : Option Word)
  /-- wg_encode_str, wg_encode_xmlliteral, wg_encode_uri -/
  | str (s : List Byte) (lang : Option (List Byte)) (type : Word) (al : StrAlloc)
  /-- wg_encode_blob -/
  | blob (data : List Byte) (lang : Option (List Byte)) (al : StrAlloc)
  /-- wg_free_encoded -/
  | free (w : Word)

/-- Results: return codes, encoded values or record offsets. -/
inductive Out
  | code (n : Int)
  | word (w : Word)
  deriving DecidableEq

/-- The table of records. -/
abbrev Table := Word → Option (List Word)

/-- Some field of some record is `r`. -/
def Table.Refers (T : Table) (r : Word) : Prop := ∃ p fs, T p = some fs ∧ r ∈ fs

/-- The table with field `i` of `r` replaced. -/
def Table.store (T : Table) (r : Word) (i : Nat) (v : Word) : Table := fun p => if p = r then (T p).map (·.set i v) else T p

/-- Field number `i` exists in record `r`. -/
def Table.has (T : Table) (r : Word) (i : Int) : Prop := ∃ fs, T r = some fs ∧ 0 ≤ i ∧ i < fs.length

/-- Permitted effects. Codes −3 and −4 report failures of index updates: the field may or may not have been changed. -/
def SpecStep (T : Table) : Op → Out → Table → Prop
  | .create len _ al, .word o, T' =>
    (0 ≤ len ∧ ∃ a, al = some a ∧ (o = a ∨ o = 0#64) ∧ T' = fun p => if p = a then some (List.replicate len.toNat 0#64) else T p) ∨
    ((len < 0 ∨ al = none) ∧ o = 0#64 ∧ T' = T)
  | .set r i v _, .code c, T' =>
    (c = -2 ∧ ¬ T.has r i ∧ T' = T) ∨
    (T.has r i ∧ ((c = 0 ∧ T' = T.store r i.toNat v) ∨ ((c = -3 ∨ c = -4) ∧ (T' = T ∨ T' = T.store r i.toNat v))))
  | .setNew r i v _, .code c, T' =>
    (c = -2 ∧ ¬ (T.has r i ∧ ∃ fs, T r = some fs ∧ fs[i.toNat]? = some 0#64) ∧ T' = T) ∨
    (T.has r i ∧ (∃ fs, T r = some fs ∧ fs[i.toNat]? = some 0#64) ∧
      ((c = 0 ∧ T' = T.store r i.toNat v) ∨ ((c = -3 ∨ c = -4) ∧ (T' = T ∨ T' = T.store r i.toNat v))))
  | .delete r, .code c, T' =>
    (c = -1 ∧ T.Refers r ∧ T' = T) ∨
    (¬ T.Refers r ∧ ((c = 0 ∧ T' = fun p => if p = r then none else T p) ∨ (c = -3 ∧ T' = T)))
  | .int _ _, .word _, T' => T' = T
  | .double _ _, .word _, T' => T' = T
  | .str _ _ _ _, .word _, T' => T' = T
  | .blob _ _ _, .word _, T' => T' = T
  | .free _, .code _, T' => T' = T
  | _, _, _ => False

end WG.Recs
