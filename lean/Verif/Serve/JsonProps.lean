import Verif.Serve.JsonSpec
import Verif.Serve.OutProps
import Verif.Yajl.Print

/-!
# The server: an answer in JSON shows the records
-/
namespace WG.Serve
open WG.Csv (Str Byte asc bytes)
open WG.Json (J JArr fmtInt)
open WG.Yajl
open Spec

variable {ρ : Type} {strtod : Str → Option Word}

theorem json_table : ∀ c : Byte, c.toNat ≤ 0x7f → (jsonByte c = [c] ∧ 0x20 ≤ c.toNat ∧ c ≠ 0x22#8 ∧ c ≠ 0x5c#8) ∨ (∃ p ∈ shortEsc, p.2 = c ∧ jsonByte c = [0x5c#8, p.1]) ∨
    (c.toNat < 0x20 ∧ jsonByte c = [0x5c#8, 0x75#8, 0x30#8, 0x30#8, (jsonByte c).getD 4 0#8, (jsonByte c).getD 5 0#8] ∧ isVHC ((jsonByte c).getD 4 0#8) = true ∧
      isVHC ((jsonByte c).getD 5 0#8) = true ∧ hexVal ((jsonByte c).getD 4 0#8) = some (c.toNat / 16) ∧ hexVal ((jsonByte c).getD 5 0#8) = some (c.toNat % 16)) := by decide +kernel

theorem json_high : ∀ c : Byte, 0x80 ≤ c.toNat → jsonByte c = [c] ∧ c ≠ 0x22#8 ∧ c ≠ 0x5c#8 := by decide +kernel

theorem jsonBytes_high {u : List Byte} (h : ∀ c ∈ u, 0x80 ≤ c.toNat) : u.flatMap jsonByte = u ∧ ∀ c ∈ u, 0x20 ≤ c.toNat ∧ c ≠ 0x22#8 ∧ c ≠ 0x5c#8 := by
  constructor
  · induction u with
    | nil => rfl
    | cons c u ih =>
      rw [List.flatMap_cons, (json_high c (h c (by simp))).1, ih fun d hd => h d (by simp [hd])]
      rfl
  · intro c hc
    have := h c hc
    exact ⟨by omega, (json_high c this).2⟩

theorem jsonBytes_char {u raw s : List Byte} (hu : Utf8 u) (hb : Body raw s) : Body (u.flatMap jsonByte ++ raw) (u ++ s) := by
  have high : (∀ c ∈ u, 0x80 ≤ c.toNat) → Body (u.flatMap jsonByte ++ raw) (u ++ s) := by
    intro h
    obtain ⟨e1, e2⟩ := jsonBytes_high h
    rw [e1]
    exact .char hu e2 hb
  cases hu with
  | @one c hc =>
    have e : [c].flatMap jsonByte = jsonByte c := by simp
    rw [e]
    rcases json_table c hc.2 with ⟨h1, h2⟩ | ⟨⟨d, v⟩, h1, rfl, h2⟩ | ⟨h1, h2, h3, h4, h5, h6⟩
    · rw [h1]; exact .char (.one hc) (by simpa using h2) hb
    · rw [h2]; exact .esc h1 hb
    · rw [h2]
      have z : Hex 0x30#8 0 := Hex.digit (c := 0x30#8) (by unfold Between; decide)
      have hh := Hex4.mk z z (hex_val h3 h5) (hex_val h4 h6)
      have hn : ((0 * 16 + 0) * 16 + c.toNat / 16) * 16 + c.toNat % 16 = c.toNat := by omega
      rw [hn] at hh
      have := Body.hex hh (by omega) hb
      rw [utf8, if_pos (by omega), BitVec.ofNat_toNat, BitVec.setWidth_eq] at this
      simpa using this
  | two h1 h2 => exact high (by simpa using ⟨by have := h1.1; omega, h2.1⟩)
  | three h1 h2 h3 => exact high (by simpa using ⟨by have := h1.1; omega, h2.1, h3.1⟩)
  | four h1 h2 h3 h4 => exact high (by simpa using ⟨by have := h1.1; omega, h2.1, h3.1, h4.1⟩)

theorem jsonBytes_ok {s : List Byte} (h : Utf8Text s) : Body (s.flatMap jsonByte) s := by
  induction h with
  | nil => exact .nil
  | @cons u s hu _ ih =>
    rw [List.flatMap_append]
    exact jsonBytes_char hu ih

theorem plain_body {s : Str} (h : Plain s) : Body s s := by
  obtain ⟨h1, h2⟩ := h
  induction h1 with
  | nil => exact .nil
  | @cons u s hu _ ih =>
    exact .char hu (fun c hc => h2 c (List.mem_append_left _ hc)) (ih fun c hc => h2 c (List.mem_append_right _ hc))

theorem utf8_append {s t : Str} (h : Utf8Text s) (ht : Utf8Text t) : Utf8Text (s ++ t) := by
  induction h with
  | nil => exact ht
  | cons hu _ ih => rw [List.append_assoc]; exact .cons hu ih

theorem Spec.Plain.append {s t : Str} (h : Plain s) (ht : Plain t) : Plain (s ++ t) :=
  ⟨utf8_append h.1 ht.1, fun c hc => (List.mem_append.1 hc).elim (h.2 c) (ht.2 c)⟩

theorem plain_ascii {s : Str} (h : ∀ c ∈ s, 0x20 ≤ c.toNat ∧ c.toNat ≤ 0x7f ∧ c ≠ 0x22#8 ∧ c ≠ 0x5c#8) : Plain s := by
  refine ⟨?_, fun c hc => ⟨(h c hc).1, (h c hc).2.2⟩⟩
  induction s with
  | nil => exact .nil
  | cons c s ih => exact Utf8Text.cons (u := [c]) (.one ⟨Nat.zero_le _, (h c (by simp)).2.1⟩) (ih fun d hd => h d (by simp [hd]))

theorem val_quote {s t : Str} (h : Body t s) : Val strtod (quote t) (.str s) := by
  rw [quote_eq]
  exact .str h

theorem fmtInt_plain (v : Int) : ∀ c ∈ fmtInt v, 0x20 ≤ c.toNat ∧ c.toNat ≤ 0x7f ∧ c ≠ 0x22#8 ∧ c ≠ 0x5c#8 := by
  have hd : ∀ c ∈ Json.digits v.natAbs, 0x20 ≤ c.toNat ∧ c.toNat ≤ 0x7f ∧ c ≠ 0x22#8 ∧ c ≠ 0x5c#8 := fun c hc => by
    obtain ⟨h1, h2⟩ := (Yajl.digits_ok v.natAbs).2.1.2 c hc
    refine ⟨by omega, by omega, fun e => ?_, fun e => ?_⟩
    · rw [e] at h1; exact absurd h1 (by decide)
    · rw [e] at h2; exact absurd h2 (by decide)
  unfold fmtInt
  split
  · intro c hc
    rcases List.mem_cons.1 hc with rfl | hc
    · decide
    · exact hd c hc
  · exact hd

theorem fmtInt_val (i : Int) (h : i.natAbs < 2 ^ 63) : Val strtod (fmtInt i) (.int (BitVec.ofInt 64 i)) := by
  have e : (BitVec.ofInt 64 i).toInt = i := BitVec.toInt_ofInt_eq_self (by decide) (by omega) (by omega)
  have := Yajl.fmtInt_ok (strtod := strtod) (v := BitVec.ofInt 64 i) (by rw [e]; omega)
  rwa [e] at this

theorem int32_eq (v : Word) (h1 : -2 ^ 31 ≤ v.toInt) (h2 : v.toInt < 2 ^ 31) : Json.toInt32 v = v.toInt := by
  unfold Json.toInt32
  have e1 : (v.setWidth 32).toInt = Int.bmod v.toNat (2 ^ 32) := BitVec.toInt_setWidth v
  have e2 : Int.bmod (v.toNat : Int) (2 ^ 32) = Int.bmod v.toInt (2 ^ 32) := by
    rw [BitVec.toInt_eq_toNat_cond]
    split
    · rfl
    · have : ((v.toNat : Int) - ((2 ^ 64 : Nat) : Int)) = v.toNat + (-(2 ^ 32 : Int)) * ((2 ^ 32 : Nat) : Int) := by norm_num; ring
      rw [this, Int.add_mul_bmod_self_right]
  show (v.setWidth 32).toInt = v.toInt
  rw [e1, e2]
  exact Int.bmod_eq_of_le (by omega) (by omega)

theorem places_plain : ∀ (w n : Nat), ∀ c ∈ Iso.places w n, c.toNat ≥ 48 ∧ c.toNat ≤ 57
  | 0, _ => by intro c hc; cases hc
  | w + 1, n => by
    intro c hc
    rw [Iso.places] at hc
    rcases List.mem_cons.1 hc with rfl | hc
    · have : ∀ n : Fin 10, (Iso.digit n).toNat ≥ 48 ∧ (Iso.digit n).toNat ≤ 57 := by decide
      exact this ⟨n / 10 ^ w % 10, Nat.mod_lt _ (by omega)⟩
    · exact places_plain w n c hc

/-- Digits, and what is between them in dates and times. -/
theorem bytes_plain (s : List Char) (h : ∀ c ∈ s, c.toNat ≥ 45 ∧ c.toNat ≤ 58) : Plain (bytes s) := by
  refine plain_ascii (fun b hb => ?_)
  unfold bytes at hb
  obtain ⟨c, hc, rfl⟩ := List.mem_map.1 hb
  have := h c hc
  have e : (BitVec.ofNat 8 c.toNat).toNat = c.toNat := by rw [BitVec.toNat_ofNat]; omega
  refine ⟨by omega, by omega, fun x => ?_, fun x => ?_⟩
  · rw [x] at e
    have : (0x22#8).toNat = 34 := by decide
    omega
  · rw [x] at e
    have : (0x5c#8).toNat = 92 := by decide
    omega

theorem date_plain (y m d : Nat) : Plain (bytes (Iso.dateText y m d)) := by
  refine bytes_plain _ (fun c hc => ?_)
  unfold Iso.dateText at hc
  simp only [List.mem_append, List.mem_singleton] at hc
  rcases hc with (((h | h) | h) | h) | h
  · have := places_plain _ _ c h; omega
  · subst h; decide
  · have := places_plain _ _ c h; omega
  · subst h; decide
  · have := places_plain _ _ c h; omega

theorem time_plain (h m s p : Nat) : Plain (bytes (Iso.clockText h m s ++ ['.'] ++ Iso.places 2 p)) := by
  refine bytes_plain _ (fun c hc => ?_)
  unfold Iso.clockText at hc
  simp only [List.mem_append, List.mem_singleton] at hc
  rcases hc with ((((((h | h) | h) | h) | h) | h) | h)
  · have := places_plain _ _ c h; omega
  · subst h; decide
  · have := places_plain _ _ c h; omega
  · subst h; decide
  · have := places_plain _ _ c h; omega
  · subst h; decide
  · have := places_plain _ _ c h; omega

theorem take_date (y m d : Nat) (t c p : List Char) : (bytes (Iso.dateText y m d ++ t ++ c ++ ['.'] ++ p)).take 10 = bytes (Iso.dateText y m d) := by
  have l : (bytes (Iso.dateText y m d)).length = 10 := by simp [bytes, Iso.dateText, Iso.places_length]
  unfold bytes at l ⊢
  simp only [List.map_append, List.append_assoc]
  rw [List.take_append_of_le_length (by omega), List.take_of_length_le (by omega)]

theorem drop_time (h m s p : Nat) : (bytes (Iso.dateText 1 1 1 ++ ['T'] ++ Iso.clockText h m s ++ ['.'] ++ Iso.places 2 p)).drop 11 = bytes (Iso.clockText h m s ++ ['.'] ++ Iso.places 2 p) := by
  have l : (bytes (Iso.dateText 1 1 1 ++ ['T'])).length = 11 := by simp [bytes, Iso.dateText, Iso.places_length]
  have : bytes (Iso.dateText 1 1 1 ++ ['T'] ++ Iso.clockText h m s ++ ['.'] ++ Iso.places 2 p) = bytes (Iso.dateText 1 1 1 ++ ['T']) ++ bytes (Iso.clockText h m s ++ ['.'] ++ Iso.places 2 p) := by
    simp [bytes]
  rw [this, ← l, List.drop_left]

theorem value_val (e : Env ρ) (hj : e.json = true) (hs : e.strenc = 2) {v : SV ρ} {j : J} (hf : Fits e v) (h : Shown strtod e v j) : Val strtod (valueText e v) j := by
  have a1 : Plain (asc "@") := plain_ascii (by decide)
  have a2 : Plain (asc ":") := plain_ascii (by decide)
  have a3 : Plain (asc "?") := plain_ascii (by decide)
  cases h with
  | null =>
    unfold valueText
    rw [hj]
    exact Val.arr0 (g := []) .nil
  | record =>
    have hf : _ ∧ _ := hf
    exact fmtInt_val _ hf.1
  | int h1 h2 =>
    unfold valueText
    simp only
    rw [int32_eq _ h1 h2]
    exact Yajl.fmtInt_ok (by omega)
  | double h => exact h
  | fixpoint h => exact h
  | str h =>
    have : strBody 2 = fun s => s.flatMap jsonByte := rfl
    unfold valueText
    simp only [hs, this]
    exact val_quote (jsonBytes_ok h)
  | lang h1 h2 => exact val_quote (plain_body ((h1.append a1).append h2))
  | uri h => exact val_quote (plain_body h)
  | prefixed h1 h2 => exact val_quote (plain_body ((h2.append a2).append h1))
  | xml h1 h2 => exact val_quote (plain_body ((h2.append a2).append h1))
  | char h => exact val_quote (plain_body h)
  | @date y m d h1 h2 =>
    have e1 : Iso.strf (ymdToDate y m d) 0 = _ := Iso.C51_format y m d 0 0 0 0 h1 h2 (by decide) (by decide) (by decide) (by decide)
    unfold valueText
    simp only [e1]
    rw [take_date]
    exact val_quote (plain_body (date_plain y m d))
  | @time h m s p h1 h2 h3 h4 =>
    have e1 : Iso.strf 1 (hmsToTime h m s p) = _ := Iso.C51_format 1 1 1 h m s p (by unfold WG.Spec.ValidDate; decide) (by decide) h1 h2 h3 h4
    unfold valueText
    simp only [e1]
    rw [drop_time]
    exact val_quote (plain_body (time_plain h m s p))
  | @var v => exact val_quote (plain_body (a3.append (plain_ascii (fmtInt_plain v))))
  | other => exact val_quote .nil

/-- Values with a separator between them. -/
theorem items_of (g : Str) (hg : Gap g) : ∀ (ts : List Str) (js : List J) (t : Str) (j : J), List.Forall₂ (Val strtod) ts js → Val strtod t j →
    Items strtod (t ++ ts.flatMap (fun t => (0x2c#8 :: g) ++ t)) (arrOf (j :: js))
  | [], _, t, j, .nil, hv => by simpa [arrOf] using Items.one (g := []) (g' := []) .nil hv .nil
  | t' :: ts, j' :: js, t, j, .cons h1 h2, hv => by
    have ih := Yajl.items_before hg (items_of g hg ts js t' j' h2 h1)
    have := Items.more (g := []) (g' := []) .nil hv .nil ih
    simpa [arrOf] using this

theorem array_val (g g1 g2 : Str) (hg : Gap g) (hg1 : Gap g1) (hg2 : Gap g2) (ts : List Str) (js : List J) (h : List.Forall₂ (Val strtod) ts js) :
    Val strtod (0x5b#8 :: (g1 ++ (0x2c#8 :: g).intercalate ts ++ g2) ++ [0x5d#8]) (.arr (arrOf js)) := by
  cases h with
  | nil =>
    refine .arr0 ?_
    simpa [List.intercalate] using hg1.append hg2
  | @cons t j ts js h1 h2 =>
    refine .arr (Yajl.items_after hg2 (Yajl.items_before hg1 ?_))
    rw [intercalate_cons]
    exact items_of g hg ts js t j h2 h1

theorem row_val (e : Env ρ) (hj : e.json = true) (hs : e.strenc = 2) {r : ρ} {j : J} (hf : ∀ v ∈ e.F r, Fits e v) (hid : e.showid = true → (e.id r).natAbs < 2 ^ 63)
    (h : RowOf strtod e r j) : Val strtod (recordText e r) j := by
  obtain ⟨js, h1, rfl⟩ := h
  have h2 : List.Forall₂ (Val strtod) ((e.F r).map (valueText e)) js := by
    generalize e.F r = vs at hf h1
    induction h1 with
    | nil => exact .nil
    | cons h _ ih => exact .cons (value_val e hj hs (hf _ (by simp)) h) (ih fun v hv => hf v (by simp [hv]))
  have h3 : List.Forall₂ (Val strtod) ((if e.showid then [fmtInt (e.id r)] else []) ++ (e.F r).map (valueText e)) ((if e.showid then [.int (BitVec.ofInt 64 (e.id r))] else []) ++ js) := by
    cases hsh : e.showid with
    | false => exact h2
    | true => exact .cons (fmtInt_val _ (hid hsh)) h2
  have := array_val [] [] [] .nil .nil .nil _ _ h3
  unfold recordText
  rw [hj]
  simpa [asc] using this

/-- **C75.** The answer to a search, in JSON, is a JSON text that says what the records are. -/
theorem C75_partial (e : Env ρ) (n : Nat) (rs : List ρ) (js : List J) (hj : e.json = true) (hs : e.strenc = 2) (he : ∀ n, e.realloc n = true) (hp : ∀ p, e.jsonp = some p → p.length ≤ 96)
    (hv : ∀ r ∈ rs, ∀ v ∈ e.F r, Fits e v) (hid : ∀ r ∈ rs, e.showid = true → (e.id r).natAbs < 2 ^ 63) (h : List.Forall₂ (RowOf strtod e) rs js) :
    (∃ o t, searchAnswer e (n + 1) rs = .ok o ∧ o.text = wrap e.jsonp t ∧ o.term = true ∧ Text strtod t (.arr (arrOf js))) ∨
      ((∃ o, searchAnswer e (n + 1) rs = .fail o) ∧ 7000000 < (searchText e rs).length) := by
  have h2 : List.Forall₂ (Val strtod) (rs.map (recordText e)) js := by
    clear n
    induction h with
    | nil => exact .nil
    | cons h _ ih => exact .cons (row_val e hj hs (hv _ (by simp)) (hid _ (by simp)) h) (ih (fun r hr => hv r (by simp [hr])) (fun r hr => hid r (by simp [hr])))
  have nl : Gap [0x0a#8] := Yajl.gap_nl .nil
  have h3 := array_val [0x0a#8] [0x0a#8] [0x0a#8] nl nl nl _ _ h2
  refine (C74_search_partial e n rs he hp hv hid).imp (fun ⟨o, h4, h5, _, h7⟩ => ?_) id
  refine ⟨o, _, h4, ?_, h7 (Or.inl hj), [], _, [], [], rfl, .nil, h3, .nil, Or.inl rfl⟩
  rw [h5]
  unfold searchText wrap
  rw [hj]
  cases e.jsonp <;> simp [asc]

end WG.Serve
