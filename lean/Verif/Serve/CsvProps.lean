import Verif.Serve.JsonProps

/-!
# The server: an answer in CSV shows the records
-/
namespace WG.Serve.Spec
open WG.Csv (Str Byte asc bytes)
open WG.Json (fmtInt)
open WG.Serve (SV Env urlByte)

variable {ρ : Type}

/-- A field of a CSV file, RFC 4180: as it is, if it has no comma, quote or end of line, or in quotes, with the quotes doubled. -/
inductive CsvField : Str → Str → Prop
  | plain {s : Str} : (∀ c ∈ s, c ≠ 0x2c#8 ∧ c ≠ 0x22#8 ∧ c ≠ 0x0d#8 ∧ c ≠ 0x0a#8) → CsvField s s
  | quoted {s : Str} : CsvField (asc "\"" ++ (s.flatMap fun c => if c = 0x22#8 then [c, c] else [c]) ++ asc "\"") s

/-- A CSV file and its rows. A row of no fields is an empty line. -/
def CsvText (t : Str) (rows : List (List Str)) : Prop :=
  ∃ ts : List (List Str), List.Forall₂ (List.Forall₂ CsvField) ts rows ∧ t = ts.flatMap fun r => (asc ",").intercalate r ++ asc "\r\n"

/-- What a field says: nothing for NULL, the number of a record, numbers, the text of strings, and text for the other types. -/
inductive CsvShown (e : Env ρ) : SV ρ → Str → Prop
  | null : CsvShown e .null []
  | record {r : ρ} : CsvShown e (.record r) (fmtInt (e.id r))
  | int {v : Word} : -2 ^ 31 ≤ v.toInt → v.toInt < 2 ^ 31 → CsvShown e (.int v) (fmtInt v.toInt)
  | double {d : Word} : (∀ c ∈ e.fmtG d, c ≠ 0x2c#8 ∧ c ≠ 0x22#8 ∧ c ≠ 0x0d#8 ∧ c ≠ 0x0a#8) → CsvShown e (.double d) (e.fmtG d)
  | fixpoint {d : Word} : (∀ c ∈ e.fmtG d, c ≠ 0x2c#8 ∧ c ≠ 0x22#8 ∧ c ≠ 0x0d#8 ∧ c ≠ 0x0a#8) → CsvShown e (.fixpoint d) (e.fmtG d)
  | str {s : Str} : CsvShown e (.str s none) s
  | lang {s l : Str} : 0x22#8 ∉ s → 0x22#8 ∉ l → CsvShown e (.str s (some l)) (s ++ asc "@" ++ l)
  | uri {s : Str} : 0x22#8 ∉ s → CsvShown e (.uri s none) s
  | prefixed {s p : Str} : 0x22#8 ∉ s → 0x22#8 ∉ p → CsvShown e (.uri s (some p)) (p ++ asc ":" ++ s)
  | xml {s t : Str} : 0x22#8 ∉ s → 0x22#8 ∉ t → CsvShown e (.xml s t) (t ++ asc ":" ++ s)
  | char {c : Byte} : c ≠ 0x22#8 → CsvShown e (.char c) [c]
  | date {y m d : Nat} : WG.Spec.ValidDate y m d → y ≤ 9999 → CsvShown e (.date (ymdToDate y m d)) (bytes (Iso.dateText y m d))
  | time {h m s p : Nat} : h < 24 → m < 60 → s < 60 → p < 100 → CsvShown e (.time (hmsToTime h m s p)) (bytes (Iso.clockText h m s ++ ['.'] ++ Iso.places 2 p))
  | var {v : Int} : CsvShown e (.var v) (asc "?" ++ fmtInt v)
  | other : CsvShown e .other []

/-- The row that stands for a record. -/
def CsvRow (e : Env ρ) (r : ρ) (fs : List Str) : Prop :=
  ∃ gs, List.Forall₂ (CsvShown e) (e.F r) gs ∧ fs = (if e.showid then [fmtInt (e.id r)] else []) ++ gs

end WG.Serve.Spec

namespace WG.Serve
open WG.Csv (Str Byte asc bytes)
open WG.Json (fmtInt)
open WG.Serve.Spec

variable {ρ : Type}

theorem undoubled {s : Str} (h : 0x22#8 ∉ s) : (s.flatMap fun c => if c = 0x22#8 then [c, c] else [c]) = s := by
  induction s with
  | nil => rfl
  | cons c s ih =>
    rw [List.flatMap_cons, ih (fun hc => h (List.mem_cons_of_mem _ hc)), if_neg (fun e => h (by rw [e]; exact List.mem_cons_self))]
    rfl

theorem csv_quote {s : Str} (h : 0x22#8 ∉ s) : CsvField (quote s) s := by
  have := CsvField.quoted (s := s)
  rwa [undoubled h] at this

theorem int_csv (v : Int) : ∀ c ∈ fmtInt v, c ≠ 0x2c#8 ∧ c ≠ 0x22#8 ∧ c ≠ 0x0d#8 ∧ c ≠ 0x0a#8 := by
  have hd : ∀ c ∈ Json.digits v.natAbs, c ≠ 0x2c#8 ∧ c ≠ 0x22#8 ∧ c ≠ 0x0d#8 ∧ c ≠ 0x0a#8 := fun c hc => by
    obtain ⟨h1, _⟩ := (Yajl.digits_ok v.natAbs).2.1.2 c hc
    refine ⟨?_, ?_, ?_, ?_⟩ <;> (intro e; rw [e] at h1; exact absurd h1 (by decide))
  unfold fmtInt
  split
  · intro c hc
    rcases List.mem_cons.1 hc with rfl | hc
    · decide
    · exact hd c hc
  · exact hd

theorem Spec.Plain.noQuote {s : Str} (h : Plain s) : 0x22#8 ∉ s := fun hc => (h.2 _ hc).2.1 rfl

theorem csv_value (e : Env ρ) (hj : e.json = false) (hs : e.strenc = 3) {v : SV ρ} {f : Str} (hf : Fits e v) (h : CsvShown e v f) : CsvField (valueText e v) f := by
  have no : ∀ {s t : Str}, 0x22#8 ∉ s → 0x22#8 ∉ t → 0x22#8 ∉ s ++ t := fun h1 h2 h => (List.mem_append.1 h).elim h1 h2
  cases h with
  | null =>
    unfold valueText
    rw [hj]
    exact .plain (by intro c hc; cases hc)
  | record => exact .plain (int_csv _)
  | int h1 h2 =>
    unfold valueText
    simp only
    rw [int32_eq _ h1 h2]
    exact .plain (int_csv _)
  | double h => exact .plain h
  | fixpoint h => exact .plain h
  | str =>
    unfold valueText
    simp only [hs]
    exact .quoted
  | lang h1 h2 => exact csv_quote (no (no h1 (by decide)) h2)
  | uri h => exact csv_quote h
  | prefixed h1 h2 => exact csv_quote (no (no h2 (by decide)) h1)
  | xml h1 h2 => exact csv_quote (no (no h2 (by decide)) h1)
  | char h => exact csv_quote (fun hc => h (List.mem_singleton.1 hc).symm)
  | @date y m d h1 h2 =>
    have e1 : Iso.strf (ymdToDate y m d) 0 = _ := Iso.C51_format y m d 0 0 0 0 h1 h2 (by decide) (by decide) (by decide) (by decide)
    unfold valueText
    simp only [e1, take_date]
    exact csv_quote (date_plain y m d).noQuote
  | @time h m s p h1 h2 h3 h4 =>
    have e1 : Iso.strf 1 (hmsToTime h m s p) = _ := Iso.C51_format 1 1 1 h m s p (by unfold WG.Spec.ValidDate; decide) (by decide) h1 h2 h3 h4
    unfold valueText
    simp only [e1, drop_time]
    exact csv_quote (time_plain h m s p).noQuote
  | @var v => exact csv_quote (no (by decide) fun hc => (int_csv v _ hc).2.1 rfl)
  | other => exact csv_quote (by decide)

/-- **C75.** The answer to a search, in CSV, is a CSV file with the records as rows. -/
theorem C75_csv_partial (e : Env ρ) (n : Nat) (rs : List ρ) (fs : List (List Str)) (hj : e.json = false) (hs : e.strenc = 3) (he : ∀ n, e.realloc n = true) (hp : ∀ p, e.jsonp = some p → p.length ≤ 96)
    (hv : ∀ r ∈ rs, ∀ v ∈ e.F r, Fits e v) (hid : ∀ r ∈ rs, e.showid = true → (e.id r).natAbs < 2 ^ 63) (h : List.Forall₂ (CsvRow e) rs fs) :
    (∃ o, searchAnswer e (n + 1) rs = .ok o ∧ CsvText o.text fs ∧ (rs ≠ [] → o.term = true)) ∨
      ((∃ o, searchAnswer e (n + 1) rs = .fail o) ∧ 7000000 < (searchText e rs).length) := by
  have hrows : List.Forall₂ (List.Forall₂ CsvField) (rs.map fun r => (if e.showid then [fmtInt (e.id r)] else []) ++ (e.F r).map (valueText e)) fs := by
    induction h with
    | nil => exact .nil
    | @cons r f rs fs h _ ih =>
      refine .cons ?_ (ih (fun r hr => hv r (by simp [hr])) (fun r hr => hid r (by simp [hr])))
      obtain ⟨gs, h1, rfl⟩ := h
      have hv0 := hv r (by simp)
      have h2 : List.Forall₂ CsvField ((e.F r).map (valueText e)) gs := by
        generalize e.F r = vs at hv0 h1
        induction h1 with
        | nil => exact .nil
        | cons h _ ih => exact .cons (csv_value e hj hs (hv0 _ (by simp)) h) (ih fun v hv => hv0 v (by simp [hv]))
      cases e.showid with
      | false => exact h2
      | true => exact .cons (.plain (int_csv _)) h2
  refine (C74_search_partial e n rs he hp hv hid).imp (fun ⟨o, h4, h5, _, h7⟩ => ⟨o, h4, ⟨_, hrows, ?_⟩, fun hr => h7 (Or.inr hr)⟩) id
  rw [h5]
  unfold searchText recordText
  rw [hj]
  simp [List.flatMap_map]

end WG.Serve
