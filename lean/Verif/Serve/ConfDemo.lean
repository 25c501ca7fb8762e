import Verif.Serve.ConfProps

/-!
# The server: configuration files, cases and counterexamples
-/
namespace WG.Serve
open WG.Csv (Str Byte asc)
open Spec

/-- No values yet. -/
def noConf : Lists := fun _ => []

/-- The values of a key after a load that went well. -/
def Load.values (r : Load) (k : Str) : Option (List Str) := match r with
  | .code 0 c => some (c k)
  | _ => none

/-- Five lines and a last one without new line. -/
def demoLines : List Line :=
  [.empty [13#8], .comment (asc " tokens"), .define (asc "read_tokens") (asc " ") (asc " ") (asc "a") (asc " # one"), .heading (asc "x]"), .more (asc "  ") (asc "b") []]

def demoLast : Line := .define (asc "admin_ips") [] [] (asc "127.0.0.1") []

theorem value_ascii (v : Str) (h : v.all (fun c => decide (33 ≤ c.toNat ∧ c ≠ 35#8)) = true) : ∀ c ∈ v, ValueByte c := by
  intro c hc
  have := List.all_eq_true.1 h c hc
  obtain ⟨h1, h2⟩ := of_decide_eq_true this
  refine ⟨by omega, ?_, h2, ?_⟩ <;> (rintro rfl; exact absurd h1 (by decide))

theorem key_ascii (v : Str) (h : v.all (fun c => decide (33 ≤ c.toNat ∧ c ≠ 61#8)) = true) : ∀ c ∈ v, KeyByte c := by
  intro c hc
  have := List.all_eq_true.1 h c hc
  obtain ⟨h1, h2⟩ := of_decide_eq_true this
  refine ⟨by omega, ?_, h2, ?_⟩ <;> (rintro rfl; exact absurd h1 (by decide))

theorem demoLines_ok : ∀ l ∈ demoLines, l.Ok := by
  intro l hl
  have sp : ∀ c ∈ asc " ", Space c := by intro c hc; rw [show asc " " = [32#8] from by decide] at hc; simp at hc; exact Or.inl hc
  have sp2 : ∀ c ∈ asc "  ", Space c := by intro c hc; rw [show asc "  " = [32#8, 32#8] from by decide] at hc; simp at hc; exact Or.inl hc
  simp only [demoLines, List.mem_cons, List.not_mem_nil, or_false] at hl
  rcases hl with rfl | rfl | rfl | rfl | rfl
  · intro c hc; simpa using hc
  · show 10#8 ∉ asc " tokens"; decide
  · refine ⟨⟨114#8, asc "ead_tokens", by decide, by decide, by decide⟩, key_ascii _ (by decide), sp, sp, value_ascii _ (by decide), ⟨by decide, ?_⟩, fun e => absurd e (by decide)⟩
    intro c r e
    rw [show asc " # one" = 32#8 :: asc "# one" from by decide] at e
    cases e; exact Or.inr (Or.inl rfl)
  · show 10#8 ∉ asc "x]"; decide
  · exact ⟨⟨32#8, asc " ", by decide, by decide⟩, sp2, by decide, value_ascii _ (by decide), by decide, by intro c r e; cases e⟩

theorem demoLast_ok : ∀ l, some demoLast = some l → l.Ok ∧ (∀ t, l ≠ .empty t) ∧ ∀ w, l ≠ .spaces w [] := by
  intro l e
  cases e
  refine ⟨⟨⟨97#8, asc "dmin_ips", by decide, by decide, by decide⟩, key_ascii _ (by decide), ?_, ?_, value_ascii _ (by decide), ⟨by decide, ?_⟩, fun e => absurd e (by decide)⟩, ?_, ?_⟩
  · intro c hc; cases hc
  · intro c hc; cases hc
  · intro c r e; cases e
  · intro t e; cases e
  · intro w e; cases e

/-- The file gives `a` and `b` to read_tokens and one address to admin_ips. -/
theorem demo_conf (junk : Byte) : ∃ c, loadConf junk noConf (fileText demoLines ++ demoLast.text) = .code 0 c ∧
    c (asc "read_tokens") = [asc "a", asc "b"] ∧ c (asc "admin_ips") = [asc "127.0.0.1"] ∧ c (asc "write_ips") = [] := by
  obtain ⟨c, h1, h2⟩ := (C77_partial junk noConf demoLines demoLines_ok (some demoLast) demoLast_ok rfl (by decide) (by decide +kernel)).1 (fun p hp => (known_iff _).1 ((by decide +kernel : ∀ p ∈ pairs none (demoLines ++ (some demoLast).toList), p.1 ∈ confKeys) p hp))
  refine ⟨c, h1, ?_, ?_, ?_⟩ <;> (rw [h2]; decide +kernel)

/-- A file with a key that the server does not know. -/
theorem demo_conf_unknown (junk : Byte) : loadConf junk noConf (fileText [.define (asc "tokens") [] [] (asc "a") []]) = .exit := by
  have := (C77_partial junk noConf [.define (asc "tokens") [] [] (asc "a") []]
    (by
      intro l hl
      simp only [List.mem_cons, List.not_mem_nil, or_false] at hl
      subst hl
      refine ⟨⟨116#8, asc "okens", by decide, by decide, by decide⟩, key_ascii _ (by decide), ?_, ?_, value_ascii _ (by decide), ⟨by decide, ?_⟩, fun e => absurd e (by decide)⟩
      · intro c hc; cases hc
      · intro c hc; cases hc
      · intro c r e; cases e)
    none (by intro l e; cases e) rfl (by decide) (by decide +kernel)).2 ⟨(asc "tokens", asc "a"), by decide +kernel, fun h => absurd ((known_iff _).2 h) (by decide +kernel)⟩
  simpa using this

/-- Files of at least 512000 bytes are read from memory that was freed: ten tries, of which the last has 512000 bytes, are not enough. -/
theorem C77_size_counterexample (junk : Byte) (c : Lists) {file : Str} (h : 512000 ≤ file.length) : loadConf junk c file = .bad := by
  have aux : ∀ k size n, size * 2 ^ k ≤ n → confSize (k + 1) size n = none := by
    intro k
    induction k with
    | zero => intro size n h; rw [confSize, if_pos (by simpa using h)]; rfl
    | succ k ih =>
      intro size n h
      have h : size * 2 * 2 ^ k ≤ n := by rw [Nat.mul_assoc, ← Nat.pow_succ']; exact h
      have : size * 2 * 1 ≤ size * 2 * 2 ^ k := Nat.mul_le_mul_left _ (Nat.one_le_two_pow)
      rw [confSize, if_pos (by omega)]; exact ih _ _ h
  rw [loadConf, if_neg (by intro e; subst e; simp at h), aux 9 1000 _ (by simpa using h)]

/-- A space at the end of the file, after the last new line: the byte behind the file becomes a value, here a third data base. -/
theorem C77_spaces_counterexample : (loadConf 51#8 noConf (asc "dbases = 1\n 2\n ")).values (asc "dbases") = some [asc "1", asc "2", asc "3"] := by decide +kernel

/-- The same in a file of 999 bytes: the byte after the buffer is written. -/
theorem C77_write_counterexample : (match loadConf 51#8 noConf (asc "#" ++ List.replicate 996 120#8 ++ asc "\n ") with | .bad => true | _ => false) = true := by decide +kernel

/-- A line without `=` is left out without a word, and the values below it go to the key before it: what was to be a token for reading makes its holder an administrator. -/
theorem C77_line_counterexample (junk : Byte) : (loadConf junk noConf (asc "admin_tokens = a\nread_tokens\n b\n")).values (asc "admin_tokens") = some [asc "a", asc "b"] := by
  revert junk; decide +kernel

/-- Only the first word of a line is a value. -/
theorem C77_word_counterexample (junk : Byte) : (loadConf junk noConf (asc "read_tokens = a b\n")).values (asc "read_tokens") = some [asc "a"] := by
  revert junk; decide +kernel

/-- A last line without new line and without `=`: it depends on the byte behind the file whether it counts as the definition of a key. Here `=` was there by chance; values would follow. -/
theorem C77_behind_counterexample :
    (keyRow 61#8 5 none (asc "tokens")).map (·.key) = some (some (asc "tokens")) ∧ (keyRow 0#8 5 none (asc "tokens")).map (·.key) = some none := by decide +kernel

/-- An empty file is an error. -/
theorem C77_empty_counterexample (junk : Byte) (c : Lists) : loadConf junk c [] = .code 3 c := rfl

end WG.Serve
