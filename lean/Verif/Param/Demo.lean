import Verif.Param.Props
/-! # Example: a parameter and a stored string with the same text -/
namespace WG.Param

/-- The string "ab" at offset 4096 of the database, which takes the places below 2^20. -/
def demoMem : Mem := copy (fun _ => 0#64) 4096#64 ([97#8, 98#8] ++ [0#8])
def demoUsed (a : Word) : Prop := a.toNat < 2 ^ 20
/-- malloc gives blocks from offset 2^20 on, up to 1000 bytes. -/
def demoMalloc (n : Nat) : Option Word := if n ≤ 1000 then some 1048576#64 else none

theorem demo_allocates : Allocates demoUsed demoMalloc := by
  intro n o h
  unfold demoMalloc at h
  split at h
  · cases h
    refine ⟨by unfold Aligned; decide, by rw [show (1048576#64 : Word).toNat = 1048576 from rfl]; omega, fun a hb hu => ?_⟩
    unfold InBlock at hb; unfold demoUsed at hu
    rw [show (1048576#64 : Word).toNat = 1048576 from rfl] at hb
    omega
  · cases h

theorem demo_stored : Encoded (fun _ => 0#64) demoMem (encodeShortstr 4096#64) 4096#64 3 .str ∧ decodeUnistr (proc demoMem) (encodeShortstr 4096#64) = some [97#8, 98#8] ∧
    decodeUnistrLang (proc demoMem) (encodeShortstr 4096#64) = none := encoded_short (m := fun _ => 0#64) (o := 4096#64) (l := [97#8, 98#8]) (by decide) (by unfold Aligned; decide) (by decide)

theorem demo_values : ValueSet (proc demoMem) (fun w => w = encodeShortstr 4096#64) ∧ ∀ w, w = encodeShortstr 4096#64 → Within demoUsed demoMem w := by
  refine ⟨⟨?_, ?_, ?_⟩, ?_⟩
  · rintro w rfl; exact demo_stored.1.valid
  · rintro w rfl x hx; simp [decodeDouble, isFulldouble, encodeShortstr] at hx
  · rintro w rfl hr
    have h := demo_stored.1.typ
    unfold isRec Seg.reader at hr
    dsimp only at hr
    rw [h] at hr
    cases hr
  · rintro w rfl m' hm
    refine demo_stored.1.own m' (hm.mono fun a h => ?_)
    unfold InBlock at h; unfold demoUsed
    rw [show (4096#64 : Word).toNat = 4096 from rfl] at h
    simp at h
    omega

/-- The parameter "ab" compares equal to the stored string. -/
example : WG_COMPARE (proc (paramStr demoMalloc demoMem [97#8, 98#8] none).1) (encodeShortstr 4096#64) (paramStr demoMalloc demoMem [97#8, 98#8] none).2 = 0 := by
  obtain ⟨n, ⟨-, h⟩ | ⟨o, hm, he, hd, -⟩⟩ := C52_str demo_allocates demoMem (data := [97#8, 98#8]) (lang := none) (by decide) (by simp)
  · exfalso
    have := congrArg Prod.snd h
    exact absurd this (by decide)
  · have hk := C52_keeps demo_allocates hm he
    have hn : ∀ x, decodeDouble (paramStr demoMalloc demoMem [97#8, 98#8] none).1 (paramStr demoMalloc demoMem [97#8, 98#8] none).2 = some x → isNaN x = false := by
      intro x hx
      exfalso
      have : (paramStr demoMalloc demoMem [97#8, 98#8] none).2 = 1048582#64 := by decide
      rw [this] at hx
      simp [decodeDouble, isFulldouble] at hx
    rw [(C52_like_stored hk.1 he.typ he.valid hn demo_values.1 demo_values.2 rfl demo_stored.1.typ (by
      show decodeUnistr _ _ = decodeUnistr _ _
      rw [hd]; exact demo_stored.2.1.symm) rfl).1]
    simp [WG_COMPARE]

end WG.Param
