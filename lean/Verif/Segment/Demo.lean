import Verif.Segment.Props
/-! # C63: a concrete segment, and segments that are too small -/
namespace WG.Segment
open WG.Varlen (Sub upd allocChunk)

/-- `sizeof(db_memsegment_header)` for 64-bit words and LOCK_PROTO 1: 48 bytes, ten areas of 4400 bytes, string hash 40, indexes 2072,
logging 24, bitmap 16, locks 400, external databases 328. -/
def HDR : Nat := 48 + 10 * 4400 + 40 + 2072 + 24 + 16 + 400 + 328

theorem demo_ok : (initDb (fun _ => 7) HDR 200000 500 false).isSome := (C63_init_size _ _ _ _ _ (by decide)).2 (by decide)

def d0 : DB := (initDb (fun _ => 7) HDR 200000 500 false).get demo_ok
/-- A record of five words, a list cell, an index node. -/
def d1 : DB := (alloc d0 0 5).1
def d2 : DB := (alloc d1 2 0).1
def d3 : DB := (alloc d2 6 0).1

theorem d0_reach : Reach HDR d0 (fun _ _ => none) :=
  .init (size := 200000) (by decide) (by decide) (Option.some_get demo_ok).symm

theorem d1_res : (alloc d0 0 5).2 = some 46960 := by decide +kernel
theorem d2_res : (alloc d1 2 0).2 = some 63312 := by decide +kernel
theorem d3_res : (alloc d2 6 0).2 = some 96080 := by decide +kernel

theorem pair_eq {α β : Type} {p : α × β} {b : β} (h : p.2 = b) : p = (p.1, b) := by rw [← h]

/-- A history that the theorems of C63 speak about: three objects in three areas, then a new hash array. -/
theorem d3_reach : ∃ L, Reach HDR d3 L ∧ L 0 46960 = some 5 ∧ L 2 63312 = some 2 ∧ L 6 96080 = some 16 := by
  have r1 := Reach.alloc d0_reach (by decide) (pair_eq d1_res)
  have r2 := Reach.alloc r1 (by decide) (pair_eq d2_res)
  have r3 := Reach.alloc r2 (by decide) (pair_eq d3_res)
  refine ⟨_, r3, ?_, ?_, ?_⟩ <;> decide +kernel

example : (createHash d3 100).isSome ∧ ((createHash d3 0).isSome = false) := by decide +kernel

/-- `wg_attach_local_database(16)` allocates 16 bytes and stores at offset 16 and beyond before it finds that the size is too small. -/
theorem C63_header_counterexample : ∃ size > 0, (∀ mem len q, initDb mem HDR size len q = none) ∧ ∃ p ∈ headerStores, size < p.1 + p.2 := by
  refine ⟨16, by decide, ?_, (16, 8), by decide, by decide⟩
  intro mem len q
  have h := C63_init_size mem HDR 16 len q (by decide)
  cases e : initDb mem HDR 16 len q with
  | none => rfl
  | some db =>
    rw [e] at h
    have := h.1 rfl
    have : up8 HDR = 46928 := by decide
    omega

end WG.Segment
