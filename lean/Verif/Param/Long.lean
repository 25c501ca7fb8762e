import Verif.Param.Encode
/-! # Parameters stored as long strings -/
namespace WG.Param

/-- The six words of the header. -/
def header (m : Mem) (o : Word) (x dlen mt : Word) : Mem :=
  dbstore (dbstore (dbstore (dbstore (dbstore (dbstore m (o + 40#64) x) o dlen) (o + 8#64) mt) (o + 16#64) 0#64) (o + 24#64) 0#64) (o + 32#64) 0#64

theorem header_words (m : Mem) (o x dlen mt : Word) : header m o x dlen mt (o + 8#64) = mt ∧ header m o x dlen mt (o + 40#64) = x := by
  unfold header dbstore
  have ne : ∀ a b : Word, a ≠ b → o + a ≠ o + b := fun a b h e => h ((BitVec.add_right_inj o).1 e)
  have ne0 : ∀ a : Word, a ≠ 0#64 → o + a ≠ o := fun a h e => h ((BitVec.add_right_inj o).1 (by rw [e, BitVec.add_zero]))
  simp only [ne 8#64 16#64 (by decide), ne 8#64 24#64 (by decide), ne 8#64 32#64 (by decide), ne 40#64 8#64 (by decide), ne 40#64 16#64 (by decide), ne 40#64 24#64 (by decide),
    ne 40#64 32#64 (by decide), ne0 40#64 (by decide), if_false, if_true, and_self]

theorem header_agree {m : Mem} {o : Word} {x dlen mt : Word} {n : Nat} (ha : Aligned o) (hn : 48 ≤ n) (hs : o.toNat + n ≤ 2 ^ 64) :
    Agree (fun a => ¬ InBlock o n a) m (header m o x dlen mt) := by
  have a0 := al ha
  have e8 : (o + 8#64).toNat = o.toNat + 8 := toNat_add_ofNat (i := 8) (by omega)
  have e16 : (o + 16#64).toNat = o.toNat + 16 := toNat_add_ofNat (i := 16) (by omega)
  have e24 : (o + 24#64).toNat = o.toNat + 24 := toNat_add_ofNat (i := 24) (by omega)
  have e32 : (o + 32#64).toNat = o.toNat + 32 := toNat_add_ofNat (i := 32) (by omega)
  have e40 : (o + 40#64).toNat = o.toNat + 40 := toNat_add_ofNat (i := 40) (by omega)
  unfold header
  refine Agree.trans ?_ (agree_store (by omega) (by omega) (by omega))
  refine Agree.trans ?_ (agree_store (by omega) (by omega) (by omega))
  refine Agree.trans ?_ (agree_store (by omega) (by omega) (by omega))
  refine Agree.trans ?_ (agree_store (by omega) (by omega) (by omega))
  refine Agree.trans ?_ (agree_store (by omega) (by omega) (by omega))
  exact agree_store (by omega) (by omega) (by omega)

theorem padded (n : Nat) :
    (let lenrest := (n + 1) % 8
     let lengints := (n + 1) / 8 + if lenrest ≠ 0 then 1 else 0
     let dlen := 8 * (6 + lengints)
     let dlen := if dlen < 32 then 32 else dlen
     let dlen := if dlen % 8 ≠ 0 then dlen + 4 else dlen
     dlen) = 48 + (n + 1) + (if (n + 1) % 8 ≠ 0 then 8 - (n + 1) % 8 else 0) := by
  dsimp only
  split_ifs <;> omega

/-- The memory before the header is written. -/
def body (m : Mem) (o : Word) (data : Str) (pad D : Nat) (ext : Option Str) : Mem :=
  let m := copy (copy m (o + 48#64) (data ++ [0#8])) (o + 48#64 + BitVec.ofNat 64 (data.length + 1)) (List.replicate pad 0#8)
  match ext with
  | some e => copy m (o + BitVec.ofNat 64 D) (e ++ [0#8])
  | none => m

def extWord (o : Word) (D : Nat) : Option Str → Word
  | some _ => encodeShortstr (o + BitVec.ofNat 64 D)
  | none => 0#64

def extSize : Option Str → Nat
  | some e => e.length + 1
  | none => 0

theorem paramUnistr_eq {malloc : Nat → Option Word} {m : Mem} {data : Str} {t : Word} {ext : Option Str} (hl : ¬ (t = 5#64 ∧ ext = none)) {pad D : Nat}
    (hpad : (if (data.length + 1) % 8 ≠ 0 then 8 - (data.length + 1) % 8 else 0) = pad) (hD : 48 + (data.length + 1) + pad = D) :
    paramUnistr malloc m data t ext = match malloc (D + extSize ext) with
      | none => (m, illegal)
      | some o => (header (body m o data pad D ext) o (extWord o D ext) (BitVec.ofNat 64 D) ((BitVec.ofNat 64 (D - (data.length + 1)) <<< 8) ||| t), encodeLongstr o) := by
  have hp := padded data.length
  unfold paramUnistr
  rw [if_neg hl]
  dsimp only at hp ⊢
  rw [hp, hpad, hD]
  cases ext <;> rfl

/-- The strings behind the header. -/
theorem body_ok {m : Mem} {o : Word} {data : Str} {pad D N : Nat} {ext : Option Str} (ha : Aligned o) (hs : o.toNat + N ≤ 2 ^ 64) (hD : 48 + (data.length + 1) + pad = D)
    (h8 : D % 8 = 0) (hN : D + extSize ext = N) :
    Agree (fun a => ¬ InBlock o N a) m (body m o data pad D ext) ∧ IsStr (body m o data pad D ext) (o + 48#64) data ∧
      (match ext with
        | none => extWord o D ext = 0#64
        | some e => ∃ y, Aligned y ∧ extWord o D ext = encodeShortstr y ∧ IsStr (body m o data pad D ext) y e ∧ o.toNat + 48 ≤ y.toNat ∧ y.toNat + e.length + 1 ≤ o.toNat + N) := by
  have a0 := al ha
  have hDN : D ≤ N := by omega
  have e48 : (o + 48#64).toNat = o.toNat + 48 := toNat_add_ofNat (i := 48) (by omega)
  have e48' : (pad = 0 ∧ o.toNat + 48 + (data.length + 1) = 2 ^ 64) ∨ (o + 48#64 + BitVec.ofNat 64 (data.length + 1)).toNat = o.toNat + 48 + (data.length + 1) := by
    by_cases hx : o.toNat + 48 + (data.length + 1) = 2 ^ 64
    · exact .inl ⟨by omega, hx⟩
    · exact .inr (by rw [toNat_add_ofNat (by omega)]; omega)
  unfold body
  dsimp only
  generalize hm1 : copy (copy m (o + 48#64) (data ++ [0#8])) (o + 48#64 + BitVec.ofNat 64 (data.length + 1)) (List.replicate pad 0#8) = m1
  have i1 : Agree (fun a => ¬ InBlock o N a) m m1 ∧ IsStr m1 (o + 48#64) data := by
    have j1 : Agree (fun a => ¬ InBlock o N a) m (copy m (o + 48#64) (data ++ [0#8])) := agree_copy (by omega) (by simp; omega) hs
    have j2 := IsStr.copy m (o := o + 48#64) data (by omega)
    rcases e48' with ⟨p0, _⟩ | e48'
    · subst hm1; rw [p0]; exact ⟨j1, j2⟩
    · have j3 : Agree (fun a => ¬ InBlock (o + 48#64 + BitVec.ofNat 64 (data.length + 1)) pad a) (copy m (o + 48#64) (data ++ [0#8])) m1 := by
        subst hm1; exact agree_copy (by omega) (by simp) (by omega)
      refine ⟨j1.trans (j3.mono fun a h => ?_), j2.agree j3 fun a h => ?_⟩ <;> unfold InBlock at * <;> omega
  cases ext with
  | none => exact ⟨i1.1, i1.2, rfl⟩
  | some e =>
    simp only [extSize] at hN
    have eD : (o + BitVec.ofNat 64 D).toNat = o.toNat + D := toNat_add_ofNat (by omega)
    have j3 : Agree (fun a => ¬ InBlock (o + BitVec.ofNat 64 D) (e.length + 1) a) m1 (copy m1 (o + BitVec.ofNat 64 D) (e ++ [0#8])) := agree_copy (by omega) (by simp) (by omega)
    refine ⟨i1.1.trans (j3.mono fun a h => ?_), i1.2.agree j3 (fun a h => ?_),
      o + BitVec.ofNat 64 D, al_add ha h8, rfl, IsStr.copy _ _ (by omega), by omega, by omega⟩ <;> unfold InBlock at * <;> omega

/-- Parameters of type string with a language, URI and XML literal. -/
theorem paramUnistr_long {malloc : Nat → Option Word} {m : Mem} {data : Str} {t : Word} {ext : Option Str} {T : WType} (hl : ¬ (t = 5#64 ∧ ext = none))
    (hT : t = 5#64 ∧ T = .str ∨ t = 6#64 ∧ T = .xmlliteral ∨ t = 7#64 ∧ T = .uri) (h0 : 0#8 ∉ data) (he : ∀ e, ext = some e → 0#8 ∉ e)
    (hm : ∀ n o, malloc n = some o → Aligned o ∧ o.toNat + n ≤ 2 ^ 64) :
    ∃ n, (malloc n = none ∧ paramUnistr malloc m data t ext = (m, illegal)) ∨
      ∃ o, malloc n = some o ∧ Encoded m (paramUnistr malloc m data t ext).1 (paramUnistr malloc m data t ext).2 o n T ∧
        decodeUnistr (proc (paramUnistr malloc m data t ext).1) (paramUnistr malloc m data t ext).2 = some data ∧
        decodeUnistrLang (proc (paramUnistr malloc m data t ext).1) (paramUnistr malloc m data t ext).2 = ext := by
  obtain ⟨pad, hpad⟩ : ∃ pad, (if (data.length + 1) % 8 ≠ 0 then 8 - (data.length + 1) % 8 else 0) = pad := ⟨_, rfl⟩
  obtain ⟨D, hD⟩ : ∃ D, 48 + (data.length + 1) + pad = D := ⟨_, rfl⟩
  obtain ⟨N, hN⟩ : ∃ N, D + extSize ext = N := ⟨_, rfl⟩
  have h8 : D % 8 = 0 := by subst hD; subst hpad; split_ifs <;> omega
  rw [paramUnistr_eq hl hpad hD, hN]
  refine ⟨N, ?_⟩
  cases hma : malloc N with
  | none => exact .inl ⟨rfl, rfl⟩
  | some o =>
    refine .inr ⟨o, rfl, ?_⟩
    obtain ⟨ha, hs⟩ := hm N o hma
    have e48 : (o + 48#64).toNat = o.toNat + 48 := toNat_add_ofNat (i := 48) (by omega)
    obtain ⟨k3, k4, k5⟩ := body_ok (m := m) ha hs hD h8 hN
    dsimp only
    generalize body m o data pad D ext = m2 at k3 k4 k5 ⊢
    generalize extWord o D ext = x at k5 ⊢
    generalize hmt : (BitVec.ofNat 64 (D - (data.length + 1)) <<< 8) ||| t = mt
    obtain ⟨w8, w40⟩ := header_words m2 o x (BitVec.ofNat 64 D) mt
    -- strings behind the header
    have keep : ∀ y (e : Str), o.toNat + 48 ≤ y.toNat → y.toNat + e.length + 1 ≤ o.toNat + N → IsStr m2 y e → IsStr (header m2 o x (BitVec.ofNat 64 D) mt) y e := by
      intro y e h1 h2 h3
      refine h3.agree (header_agree (n := 48) ha (by omega) (by omega)) fun a h => ?_
      unfold InBlock at *
      omega
    refine Layout.encoded (t := t) ⟨?_, keep _ _ (by omega) (by omega) k4, by omega, ?_⟩ ha hs h0 he (k3.trans (header_agree ha (by omega) hs)) hT
    · rw [w8, ← hmt]; exact meta_type _ (by rcases hT with h | h | h <;> simp [h.1])
    · cases ext with
      | none => simpa only [w40] using k5
      | some e =>
        obtain ⟨y, y1, y2, y3, y4, y5⟩ := k5
        exact ⟨y, y1, by rw [w40, y2], keep _ _ y4 y5 y3, by omega, y5⟩

end WG.Param
