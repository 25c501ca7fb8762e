import Verif.HashIndex.Props
import Verif.Compare.Props
/-!
# C29: a concrete index and counterexamples
-/
namespace WG.HashIndex

/-- The word with the given bytes, lowest first. -/
def le (l : List Nat) : Word := BitVec.ofNat 64 (l.foldr (fun b n => b + 256 * n) 0)

/-- A small segment: a URI with prefix "p" and string "\3x" at 64, a URI "p" at 160, short strings "p" at 256 and "b" at 288, the integer
2^32 at 320, the doubles 0.0 at 328 and -0.0 at 336, a blob at 352. -/
def cMem : Mem := fun o =>
  if o = 72#64 then 7#64 else if o = 104#64 then encodeShortstr 256#64 else if o = 112#64 then le [3, 0x78]
  else if o = 168#64 then 7#64 else if o = 208#64 then le [0x70]
  else if o = 256#64 then le [0x70] else if o = 288#64 then le [0x62]
  else if o = 320#64 then 0x100000000#64 else if o = 336#64 then 0x8000000000000000#64
  else if o = 360#64 then 8#64 else 0#64
def cSeg : Seg := ⟨cMem, 448⟩

def uriP : Word := encodeLongstr 64#64
def uriN : Word := encodeLongstr 160#64
def strP : Word := encodeShortstr 256#64
def strB : Word := encodeShortstr 288#64
def big : Word := encodeFullintOffset 320#64
def dZero : Word := encodeFulldouble 328#64
def dNeg : Word := encodeFulldouble 336#64
def blobV : Word := encodeLongstr 352#64
def cEnv : Env := ⟨cSeg, fun w => if w = 512#64 then some [encodeSmallint 1#64, blobV] else if w = 520#64 then some [encodeSmallint 1#64, strP] else none⟩

example : Datum.Valid cMem (.longstr 64#64 .uri) ∧ Datum.Valid cMem (.longstr 160#64 .uri) ∧ Datum.Valid cMem (.shortstr 256#64) ∧
    Datum.Valid cMem (.fullint 320#64) ∧ Datum.Valid cMem (.double 336#64) ∧ Datum.Valid cMem (.longstr 352#64 .blob) := by
  refine ⟨⟨?_, by simp, by decide +kernel⟩, ⟨?_, by simp, by decide +kernel⟩, ?_, ?_, ?_, ⟨?_, by simp, by decide +kernel⟩⟩
  · show (64#64 : Word) &&& 7#64 = 0#64; decide
  · show (160#64 : Word) &&& 7#64 = 0#64; decide
  · show (256#64 : Word) &&& 7#64 = 0#64; decide
  · show (320#64 : Word) &&& 7#64 = 0#64; decide
  · show (336#64 : Word) &&& 7#64 = 0#64; decide
  · show (352#64 : Word) &&& 7#64 = 0#64; decide

/-! ## A history: two rows are inserted into a two-column index, one is refused, one removed. -/

def t0 : Table := Table.empty 10000
def t1 : Table := (addRow cEnv false t0 0x1000#64 [strP, encodeSmallint 7#64]).1
def t2 : Table := (addRow cEnv false t1 0x1100#64 [strP, encodeSmallint 7#64]).1
def t3 : Table := (addRow cEnv false t2 0x1200#64 [strP, blobV]).1
def t4 : Table := (removeRow cEnv false t3 0x1000#64 [strP, encodeSmallint 7#64]).1

theorem pHash : Hashable cEnv false [strP, encodeSmallint 7#64] :=
  (C29_plain_keys _ _).2.2 (by intro v hv; rcases List.mem_cons.1 hv with rfl | hv; · decide +kernel
                               · rw [List.mem_singleton.1 hv]; decide +kernel)

theorem hist4 : Hist false t4 [((0x1100#64 : Word), keysOf cEnv false [strP, encodeSmallint 7#64])] := by
  have h := Hist.remove cEnv 0x1000#64 _ (Hist.refuse cEnv 0x1200#64 [strP, blobV] (Hist.add cEnv 0x1100#64 [strP, encodeSmallint 7#64]
    (Hist.add cEnv 0x1000#64 [strP, encodeSmallint 7#64] (Hist.init 10000) (by simp) pHash) (by simp) pHash) rfl
    (fun g => (C29_plain_keys _ _).2.1 g blobV (by simp) (by decide +kernel))) (by simp) pHash (by simp)
  have e : ((0x1100#64 : Word), keysOf cEnv false [strP, encodeSmallint 7#64]) ≠ ((0x1000#64 : Word), keysOf cEnv false [strP, encodeSmallint 7#64]) := by
    intro g
    exact absurd (Prod.mk.inj g).1 (by decide)
  rw [List.erase_cons_tail (by simpa using e), List.erase_cons_head] at h
  exact h

example : search cEnv t2 [strP, encodeSmallint 7#64] = some [0x1100#64, 0x1000#64] := by decide +kernel
example : search cEnv t4 [strP, encodeSmallint 7#64] = some [0x1100#64] := by decide +kernel
example : search cEnv t4 [strP, encodeSmallint 8#64] = some [] := by decide +kernel
/-- A JSON index stores one key for each element of the array. -/
example : (let T := (addRow cEnv true t0 0x1000#64 [520#64, strP]).1
    (search cEnv T [encodeSmallint 1#64, strP], search cEnv T [strP, strP], search cEnv T [520#64, strP])) =
    (some [0x1000#64], some [0x1000#64], some []) := by decide +kernel
/-- `1.5` as a fixpoint number has the key of the double 1.5 with another type byte. -/
example : hashable cEnv (encodeFixpoint 15000#32) = some (10#8 :: bytes8 0x3ff8000000000000#64) := by decide +kernel
example : quot (-1#64) = 0xbf1a36e2eb1c432d#64 := by decide +kernel

/-- The hypotheses of C29_equal_partial are met by the integers and strings of the segment. -/
theorem cSeg_values : ValueSet cSeg (fun w => w = strP ∨ w = strB ∨ w = encodeSmallint 7#64) := by
  refine ⟨?_, ?_, ?_⟩
  · rintro w (rfl | rfl | rfl)
    · exact ⟨.shortstr 256#64, by show (256#64 : Word) &&& 7#64 = 0#64; decide, rfl⟩
    · exact ⟨.shortstr 288#64, by show (288#64 : Word) &&& 7#64 = 0#64; decide, rfl⟩
    · exact ⟨.int 7#64, by constructor <;> decide, rfl⟩
  · rintro w (rfl | rfl | rfl) x h
    · exact absurd h (by rw [show decodeDouble cSeg.mem strP = none by decide +kernel]; simp)
    · exact absurd h (by rw [show decodeDouble cSeg.mem strB = none by decide +kernel]; simp)
    · exact absurd h (by rw [show decodeDouble cSeg.mem (encodeSmallint 7#64) = none by decide +kernel]; simp)
  · rintro w (rfl | rfl | rfl) hr
    · exact absurd hr (by decide +kernel)
    · exact absurd hr (by decide +kernel)
    · exact absurd hr (by decide +kernel)

/-- C29_exact_partial applies to the history above. -/
example : ∃ rows, search cEnv t4 [strP, encodeSmallint 7#64] = some rows ∧ rows.Nodup ∧
    ∀ r, r ∈ rows ↔ (∃ ks, (r, ks) ∈ [((0x1100#64 : Word), keysOf cEnv false [strP, encodeSmallint 7#64])]) ∧
      List.Forall₂ (fun a b => WG_COMPARE cSeg a b = 0) [strP, encodeSmallint 7#64] [strP, encodeSmallint 7#64] := by
  have hc : ∀ v ∈ [strP, encodeSmallint 7#64], (v = strP ∨ v = strB ∨ v = encodeSmallint 7#64) ∧ Canon cSeg v ∧ hashable cEnv v ≠ none := by
    intro v hv
    rcases List.mem_cons.1 hv with rfl | hv
    · exact ⟨Or.inl rfl, ⟨fun h => absurd h (by decide +kernel), by decide +kernel, by decide +kernel⟩, by decide +kernel⟩
    · rw [List.mem_singleton.1 hv]
      exact ⟨Or.inr (Or.inr rfl), ⟨fun h => absurd h (by decide +kernel), by decide +kernel, by decide +kernel⟩, by decide +kernel⟩
  refine C29_exact_partial cSeg_values ?_ ?_ ?_ _ hist4 (fun _ => [strP, encodeSmallint 7#64]) 2 (fun _ => rfl) ?_ (by simp) _ rfl hc
  · rintro w v (rfl | rfl | rfl) h
    · exact absurd h (by rw [show decodeInt cSeg.mem strP = none by decide +kernel]; simp)
    · exact absurd h (by rw [show decodeInt cSeg.mem strB = none by decide +kernel]; simp)
    · rw [show decodeInt cSeg.mem (encodeSmallint 7#64) = some 7#64 by decide +kernel] at h
      cases h
      decide
  · rintro w v (rfl | rfl | rfl) h
    · exact absurd h (by decide +kernel)
    · exact absurd h (by decide +kernel)
    · exact absurd h (by decide +kernel)
  · rintro w e b l (rfl | rfl | rfl) h
    · exact absurd h (by rw [show decodeUnistrLang cSeg strP = none by decide +kernel]; simp)
    · exact absurd h (by rw [show decodeUnistrLang cSeg strB = none by decide +kernel]; simp)
    · exact absurd h (by rw [show decodeUnistrLang cSeg (encodeSmallint 7#64) = none by decide +kernel]; simp)
  · intro e he
    rw [List.mem_singleton.1 he]
    exact ⟨(C29_plain_keys _ _).1, hc⟩

/-! ## Counterexamples -/

/-- C29 fails for large integers: only the low 32 bits are hashed, a search for 0 returns a row with 2^32. -/
theorem C29_int_counterexample : (cSeg.reader.int big).toInt = 2 ^ 32 ∧ WG_COMPARE cSeg big (encodeSmallint 0#64) ≠ 0 ∧
    search cEnv (addRow cEnv false t0 0x1000#64 [big]).1 [encodeSmallint 0#64] = some [0x1000#64] := by
  refine ⟨?_, ?_, ?_⟩ <;> decide +kernel

/-- C29 fails for URIs whose string begins with a type byte: two rows with different values in both columns share their key bytes. -/
theorem C29_uri_counterexample : WG_COMPARE cSeg uriP uriN ≠ 0 ∧ WG_COMPARE cSeg strB (encodeSmallint 0x62050078#64) ≠ 0 ∧
    search cEnv (addRow cEnv false t0 0x1000#64 [uriP, strB]).1 [uriN, encodeSmallint 0x62050078#64] = some [0x1000#64] := by
  refine ⟨?_, ?_, ?_⟩ <;> decide +kernel

/-- Equal values need not share key bytes: 0.0 and -0.0 are equal, but a search for 0.0 does not return the row with -0.0. -/
theorem C29_zero_counterexample : WG_COMPARE cSeg dZero dNeg = 0 ∧
    search cEnv (addRow cEnv false t0 0x1000#64 [dNeg]).1 [dZero] = some [] := by
  refine ⟨?_, ?_⟩ <;> decide +kernel

/-- A failed insertion into a JSON index can leave entries behind: the array [1, blob] is refused, but the row stays stored under 1. -/
theorem C29_json_counterexample : (addRow cEnv true t0 0x1000#64 [512#64]).2 = -1 ∧
    search cEnv (addRow cEnv true t0 0x1000#64 [512#64]).1 [encodeSmallint 1#64] = some [0x1000#64] := by
  refine ⟨?_, ?_⟩ <;> decide +kernel

end WG.HashIndex
