import Verif.Print.Lemmas
import Verif.Csv.Spec
/-!
# C60: printing a value into a buffer

`F` gives the fields of a record; records may contain themselves. `Good`: the texts of strings have no 0 byte.
-/
namespace WG.Print
open Spec
open WG.Csv (Str Byte asc)

variable {ρ : Type} {fmtF : Word → Str} {F : ρ → List (PV ρ)}

/-- C60: printing any value, also a record that contains itself, into a buffer of at least 2 bytes comes to an end and touches no byte outside of the buffer; it leaves a C string of at most
`buflen - 2` characters there. The exception is a read of bytes that were never written. -/
theorem C60_safe_partial (hF : ∀ r, ∀ v ∈ F r, Good fmtF v) (b : Buf) (off : Nat) (v : PV ρ) (buflen : Nat) (hv : Good fmtF v) (hl : 2 ≤ buflen) (hb : off + buflen ≤ b.length) :
    snprintValue fmtF F b off v buflen = .uninit ∨
    ∃ b' s, snprintValue fmtF F b off v buflen = .ok b' ∧ Same b b' off buflen ∧ CString b' off s ∧ s.length ≤ buflen - 2 := by
  rcases value_ok hF buflen b off v hv hl hb with ⟨e, _⟩ | ⟨b', s, e, h1, h2, h3, _⟩
  · exact Or.inl e
  · exact Or.inr ⟨b', s, e, h1, h2, by omega⟩

/-- C60: if the text of the value, with the fields of records to any depth, is shorter than the buffer by at least 2, it is printed whole. -/
theorem C60_exact (hF : ∀ r, ∀ v ∈ F r, Good fmtF v) (b : Buf) (off : Nat) (v : PV ρ) (buflen : Nat) (t : Str) (hv : Good fmtF v) (ht : Prints fmtF F v t) (hl : t.length + 2 ≤ buflen)
    (hb : off + buflen ≤ b.length) : ∃ b', snprintValue fmtF F b off v buflen = .ok b' ∧ Same b b' off buflen ∧ CString b' off t := by
  rcases value_ok hF buflen b off v hv (by omega) hb with ⟨_, h⟩ | ⟨b', s, e, h1, h2, _, h4⟩
  · exact absurd hl (h t ht)
  · rw [h4 t ht hl] at h2
    exact ⟨b', e, h1, h2⟩

/-- C60: a value that is not a record is always printed, cut to `buflen - 2` characters. -/
theorem C60_leaf (b : Buf) (off : Nat) (l : Leaf) (buflen : Nat) (t : Str) (ht : leafText fmtF l = some t) (hc : Clean t) (hl : 2 ≤ buflen) (hb : off + buflen ≤ b.length) :
    ∃ b', snprintValue fmtF F b off (.leaf l) buflen = .ok b' ∧ Same b b' off buflen ∧ CString b' off (t.take (buflen - 2)) := by
  obtain ⟨b1, e1, s1, g1⟩ := snprintf_ok (t := t) (b := b) (off := off) (n := buflen - 1) (by omega) (by omega) hc
  refine ⟨b1, ?_, s1.mono (by omega) (by omega), by rw [show buflen - 2 = buflen - 1 - 1 by omega]; exact g1⟩
  rw [snprintValue.eq_def, dif_neg (by omega)]
  dsimp only
  rw [ht]
  exact e1

theorem fields_ok (hF : ∀ r, ∀ v ∈ F r, Good fmtF v) (vs : List (PV ρ)) (texts : List Str) (h : List.Forall₂ (Prints fmtF F) vs texts) (hv : ∀ v ∈ vs, Good fmtF v)
    (hl : ∀ t ∈ texts, t.length ≤ 253) (strbuf : Buf) (hb : strbuf.length = 256) (first : Bool) :
    printFields fmtF F strbuf vs first = .ok ((if first ∨ texts = [] then [] else asc ",") ++ Csv.Spec.commas texts) := by
  induction h generalizing strbuf first with
  | nil => simp [printFields, Csv.Spec.commas]
  | @cons v t vs ts hp _ ih =>
    obtain ⟨b', e, s, c⟩ := C60_exact hF strbuf 0 v 255 t (hv v (by simp)) hp (by have := hl t (by simp); omega) (by omega)
    have ec := cstring_ok c
    rw [List.drop_zero] at ec
    rw [printFields, e, bind_ok, ec, bind_ok, ih (fun x hx => hv x (by simp [hx])) (fun x hx => hl x (by simp [hx])) b' (by rw [s.1, hb]) false, bind_ok]
    congr 1
    have hc : (asc ",") = [44#8] := rfl
    cases ts <;> cases first <;> simp [Csv.Spec.commas, hc]

/-- C60: wg_print_record prints `[field,...,field]` if no field takes more than 253 characters. -/
theorem C60_print_record (hF : ∀ r, ∀ v ∈ F r, Good fmtF v) (r : ρ) (texts : List Str) (h : List.Forall₂ (Prints fmtF F) (F r) texts) (hl : ∀ t ∈ texts, t.length ≤ 253) :
    printRecord fmtF F r = .ok (asc "[" ++ Csv.Spec.commas texts ++ asc "]") := by
  rw [printRecord, fields_ok hF (F r) texts h (hF r) hl _ List.length_replicate true, bind_ok]
  simp

/-! ## Concrete cases -/

/-- Records by number: 0 has an integer, a string and record 1; record 1 has a NULL; record 2 contains itself; record 3 has the integer 123456. -/
def demo : Nat → List (PV Nat)
  | 0 => [.leaf (.int 17), .leaf (.str (asc "hi")), .record (asc "2c8") 1]
  | 1 => [.leaf .null]
  | 2 => [.leaf (.char 120#8), .record (asc "3d0") 2]
  | 3 => [.leaf (.int 123456)]
  | _ => []

def fmt0 (_ : Word) : Str := asc "1.500000"

theorem demo_good : ∀ r, ∀ v ∈ demo r, Good fmt0 v := by
  have g : ∀ l t, leafText fmt0 l = some t → Clean t → Good fmt0 (.leaf l : PV Nat) := fun l t h1 h2 => ⟨t, h1, h2⟩
  have e17 : leafText fmt0 (.int 17) = some (asc "17") := by decide +kernel
  have e123 : leafText fmt0 (.int 123456) = some (asc "123456") := by decide +kernel
  intro r v hv
  match r with
  | 0 =>
    simp only [demo, List.mem_cons, List.not_mem_nil, or_false] at hv
    rcases hv with rfl | rfl | rfl
    · exact g _ _ e17 (by unfold Clean; decide)
    · exact g _ _ rfl (by unfold Clean; decide)
    · unfold Good Clean; decide
  | 1 => rw [List.mem_singleton.1 hv]; exact g _ _ rfl (by unfold Clean; decide)
  | 2 =>
    simp only [demo, List.mem_cons, List.not_mem_nil, or_false] at hv
    rcases hv with rfl | rfl
    · exact g _ _ rfl (by unfold Clean; decide)
    · unfold Good Clean; decide
  | 3 => rw [List.mem_singleton.1 hv]; exact g _ _ e123 (by unfold Clean; decide)
  | n + 4 => cases hv

/-- The text of record 0, and the buffer it needs. -/
example : Prints fmt0 demo (.record (asc "1f0") 0) (asc "<rec 1f0>[17,\"hi\",<rec 2c8>[NULL]]") ∧ (asc "<rec 1f0>[17,\"hi\",<rec 2c8>[NULL]]").length + 2 ≤ 40 := by
  refine ⟨?_, by decide⟩
  have p1 : Prints fmt0 demo (.leaf (.int 17)) (asc "17") := .leaf (by decide +kernel)
  have p2 : Prints fmt0 demo (.leaf (.str (asc "hi"))) (asc "\"hi\"") := .leaf rfl
  have p3 : Prints fmt0 demo (.leaf .null) (asc "NULL") := .leaf rfl
  have p4 : Prints fmt0 demo (.record (asc "2c8") 1) _ := .record (F := demo) (r := 1) (.cons p3 .nil)
  have p5 : Prints fmt0 demo (.record (asc "1f0") 0) _ := .record (F := demo) (r := 0) (.cons p1 (.cons p2 (.cons p4 .nil)))
  exact p5

/-- Known deviation: a record for which exactly 2 bytes are left after its address is printed with a scratch buffer of 1 byte, which is read although nothing was written to it. -/
theorem C60_uninit_counterexample : snprintValue fmt0 demo (List.replicate 11 none) 0 (.record (asc "10") 1) 11 = .uninit := by
  rw [snprintValue.eq_def, dif_neg (by omega)]
  have e : snprintf (List.replicate 11 none) 0 (11 - 1) (asc "<rec " ++ asc "10" ++ asc ">") = .ok ((asc "<rec 10>").map some ++ [some 0#8, none, none]) := rfl
  have ec : cstring (((asc "<rec 10>").map some ++ [some 0#8, none, none]).drop 0) = .ok (asc "<rec 10>") := by rfl
  dsimp only
  rw [e, bind_ok, ec, bind_ok, if_pos (by decide), snprintRecord, dif_neg (by decide)]
  have ep : put ((asc "<rec 10>").map some ++ [some 0#8, none, none]) (0 + (asc "<rec 10>").length) 91#8 = .ok ((asc "<rec 10>").map some ++ [some 91#8, none, none]) := rfl
  rw [ep, bind_ok, demo, recordLoop, snprintValue.eq_def, dif_neg (by decide)]
  rfl

/-- Known deviation: a record that does not fit is cut without a mark; `[123456]` is shown as `[12]`. -/
theorem C60_cut_counterexample : ∃ b', snprintValue fmt0 demo (List.replicate 14 none) 0 (.record (asc "10") 3) 14 = .ok b' ∧ cstring b' = .ok (asc "<rec 10>[12]") := by
  rw [snprintValue.eq_def, dif_neg (by omega)]
  have e : snprintf (List.replicate 14 none) 0 (14 - 1) (asc "<rec " ++ asc "10" ++ asc ">") = .ok ((asc "<rec 10>").map some ++ [some 0#8, none, none, none, none, none]) := rfl
  have ec : cstring (((asc "<rec 10>").map some ++ [some 0#8, none, none, none, none, none]).drop 0) = .ok (asc "<rec 10>") := by rfl
  dsimp only
  rw [e, bind_ok, ec, bind_ok, if_pos (by decide), snprintRecord, dif_neg (by decide)]
  have ep : put ((asc "<rec 10>").map some ++ [some 0#8, none, none, none, none, none]) (0 + (asc "<rec 10>").length) 91#8 =
    .ok ((asc "<rec 10>").map some ++ [some 91#8, none, none, none, none, none]) := rfl
  rw [ep, bind_ok, demo, recordLoop, snprintValue.eq_def, dif_neg (by decide)]
  dsimp only
  have e1 : leafText fmt0 (.int 123456) = some (asc "123456") := by decide +kernel
  rw [e1]
  have e2 : snprintf (List.replicate (14 - 1 - (asc "<rec 10>").length - 1) none) 0 (14 - 1 - (asc "<rec 10>").length - 1 - 1) (asc "123456") = .ok [some 49#8, some 50#8, some 0#8, none] := rfl
  have e3 : cstring [some 49#8, some 50#8, some 0#8, none] = .ok [49#8, 50#8] := rfl
  dsimp only
  rw [e2, bind_ok, e3, bind_ok, if_neg (by decide)]
  simp only [if_true, bind_ok]
  have e4 : strncpy ((asc "<rec 10>").map some ++ [some 91#8, none, none, none, none, none]) (0 + (asc "<rec 10>").length + 1 + commaLen true) [49#8, 50#8]
    (14 - 1 - (asc "<rec 10>").length - 1 - commaLen true) = .ok ((asc "<rec 10>").map some ++ [some 91#8, some 49#8, some 50#8, some 0#8, some 0#8, none]) := rfl
  rw [e4, bind_ok, if_neg (by decide), recordLoop]
  exact ⟨_, rfl, rfl⟩

end WG.Print
