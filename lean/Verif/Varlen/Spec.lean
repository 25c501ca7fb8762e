import Verif.Varlen.Model
/-!
# What a user of the allocator sees

`Live`: which objects exist, at which offset, and how many words were asked for. `Reach st L`: the area may be in
state `st` with live objects `L` after some sequence of allocations (successful or not), frees, writes of the owner into
its objects, and actions of the rest of the database (other areas taking chunks from the segment and writing anywhere
outside this area).
-/
namespace WG.Varlen

/-- Live objects: offset and number of words asked for. -/
abbrev Live := Nat → Option Nat

def Live.put (L : Live) (a n : Nat) : Live := fun x => if x = a then some n else L x
def Live.del (L : Live) (a : Nat) : Live := fun x => if x = a then none else L x

/-- `x` belongs to one of the subareas of the area. -/
def InArea (st : St) (x : Nat) : Prop := ∃ s ∈ st.subs, s.aoff ≤ x ∧ x < s.aoff + s.asize

inductive Reach : St → Live → Prop
  | new {mem : Nat → Nat} {sf ss size : Nat} {st : St} : sf % 8 = 0 → 0 < sf → sf ≤ ss → ss ≤ 2^40 →
      newArea mem sf ss size = some st → Reach st (fun _ => none)
  | alloc {st st' : St} {L : Live} {n a : Nat} : Reach st L → n < 2^37 → alloc st n = (st', some a) → Reach st' (L.put a n)
  | allocFail {st st' : St} {L : Live} {n : Nat} : Reach st L → n < 2^37 → alloc st n = (st', none) → Reach st' L
  | free {st : St} {L : Live} {a n : Nat} : Reach st L → L a = some n → Reach (free st a).1 (L.del a)
  | write {st : St} {L : Live} {a n x v : Nat} : Reach st L → L a = some n → x % 8 = 0 → a + 8 ≤ x → x < a + 8 * n →
      Reach (st.store x v) L
  | others {st : St} {L : Live} {mem' : Nat → Nat} {f : Nat} : Reach st L → st.segFree ≤ f → f % 8 = 0 → f ≤ st.segSize →
      (∀ x, InArea st x → mem' x = st.mem x) → Reach { st with mem := mem', segFree := f } L

/-- `x` is on free list `i`, following the `next` links. -/
inductive OnList (st : St) (i : Nat) : Nat → Prop
  | head : st.fb i ≠ 0 → OnList st i (st.fb i)
  | next {x : Nat} : OnList st i x → st.mem (x + 8) ≠ 0 → OnList st i (st.mem (x + 8))

/-- Blocks available for allocation: those on the free lists, and the designated victim. -/
def Avail (st : St) (x size : Nat) : Prop :=
  (∃ i, i < 288 ∧ OnList st i x ∧ size = clr (st.mem x)) ∨ (st.fb DV ≠ 0 ∧ x = st.fb DV ∧ size = st.fb DVSIZE)

/-- Bytes occupied by an object of `n` words. -/
def room (n : Nat) : Nat := max 32 (8 * n)

/-- Two ranges of bytes do not meet. -/
def Apart (a n b m : Nat) : Prop := a + n ≤ b ∨ b + m ≤ a

end WG.Varlen
