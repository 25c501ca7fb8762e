import Verif.Serve.Url
import Verif.Serve.UrlSpec
import Mathlib.Data.List.Forall2

/-!
# The server: reading a query is safe and gives the parameters
-/
namespace WG.Serve
open WG.Csv (Str Byte asc)
open Spec

theorem wr_at (p : List Byte) (x b : Byte) (r : List Byte) : wr (p ++ x :: r) p.length b = some (p ++ b :: r) := by
  unfold wr
  rw [if_pos (by simp)]
  simp [List.set_append]

theorem get_at (p : List Byte) (x : Byte) (r : List Byte) : (p ++ x :: r)[p.length]? = some x := by simp

/-- The digits as the code reads them. -/
def CodeHex (a x : Byte) : Prop := isx a = true ∧ x = hexval a

theorem scan_miss (c : Byte) : ∀ (q pre rest : List Byte), c ∉ q → scan c q.length (pre ++ q ++ rest) pre.length = some (pre ++ q ++ rest, pre.length + q.length)
  | [], pre, rest, _ => by simp [scan]
  | b :: q, pre, rest, h => by
    have e : pre ++ b :: q ++ rest = (pre ++ [b]) ++ q ++ rest := by simp
    have hb : b ≠ c := fun e => h (e ▸ List.mem_cons_self)
    rw [List.length_cons, scan]
    rw [show pre ++ b :: q ++ rest = pre ++ b :: (q ++ rest) by simp, get_at]
    simp only
    rw [if_neg hb, show pre ++ b :: (q ++ rest) = (pre ++ [b]) ++ q ++ rest by simp]
    have := scan_miss c q (pre ++ [b]) rest (fun hh => h (List.mem_cons_of_mem _ hh))
    rw [List.length_append, List.length_singleton] at this
    rw [this]
    congr 2
    omega

theorem scan_hit (c : Byte) : ∀ (a b pre rest : List Byte), c ∉ a →
    scan c (a ++ c :: b).length (pre ++ (a ++ c :: b) ++ rest) pre.length = some (pre ++ a ++ 0#8 :: (b ++ rest), pre.length + a.length)
  | [], b, pre, rest, _ => by
    rw [List.nil_append, List.length_cons, scan, show pre ++ c :: b ++ rest = pre ++ c :: (b ++ rest) by simp, get_at]
    simp only
    rw [if_pos trivial, wr_at]
    simp
  | x :: a, b, pre, rest, h => by
    have hb : x ≠ c := fun e => h (e ▸ List.mem_cons_self)
    rw [List.cons_append, List.length_cons, scan, show pre ++ x :: (a ++ c :: b) ++ rest = pre ++ x :: ((a ++ c :: b) ++ rest) by simp, get_at]
    simp only
    rw [if_neg hb, show pre ++ x :: ((a ++ c :: b) ++ rest) = (pre ++ [x]) ++ (a ++ c :: b) ++ rest by simp]
    have := scan_hit c a b (pre ++ [x]) rest (fun hh => h (List.mem_cons_of_mem _ hh))
    rw [show (pre ++ [x]).length = pre.length + 1 by simp] at this
    rw [this]
    simp only [List.append_assoc, List.length_cons, List.cons_append, List.nil_append]
    congr 2
    omega

theorem decLoop_spec : ∀ (n : Nat) (s pre out gap rest : List Byte), 0#8 ∉ s → s.length < n →
    ∃ d junk, Dec CodeHex s d ∧ out.length + d.length + junk.length = out.length + gap.length + s.length ∧
      decLoop (pre.length + out.length + gap.length + s.length) n (pre ++ out ++ gap ++ s ++ 0#8 :: rest) (pre.length + out.length)
        (pre.length + out.length + gap.length) = some (pre ++ out ++ d ++ 0#8 :: (junk ++ rest))
  | 0, s, _, _, _, _, _, h => by omega
  | n + 1, [], pre, out, gap, rest, _, _ => by
    rw [decLoop]
    have e1 : (pre ++ out ++ gap ++ [] ++ 0#8 :: rest)[pre.length + out.length + gap.length]? = some 0#8 := by
      have := get_at (pre ++ out ++ gap) 0#8 rest
      simpa [Nat.add_assoc] using this
    rw [e1]
    simp only
    rw [if_pos trivial]
    cases gap with
    | nil =>
      refine ⟨[], [], .nil, by simp, ?_⟩
      have := wr_at (pre ++ out) 0#8 0#8 rest
      simpa using this
    | cons g gs =>
      refine ⟨[], gs ++ [0#8], .nil, by simp, ?_⟩
      have := wr_at (pre ++ out) g 0#8 (gs ++ 0#8 :: rest)
      simpa using this
  | n + 1, c :: s, pre, out, gap, rest, h0, hn => by
    have hc : c ≠ 0#8 := fun e => h0 (e ▸ List.mem_cons_self)
    have hs : 0#8 ∉ s := fun h => h0 (List.mem_cons_of_mem _ h)
    have hl : s.length < n := by simpa using hn
    have e1 : (pre ++ out ++ gap ++ (c :: s) ++ 0#8 :: rest)[pre.length + out.length + gap.length]? = some c := by
      have := get_at (pre ++ out ++ gap) c (s ++ 0#8 :: rest)
      simpa [Nat.add_assoc] using this
    have wrx : ∀ (x : Byte) (u v : List Byte), c :: s = u ++ v → u ≠ [] → ∃ g', g'.length + 1 = gap.length + u.length ∧
        wr (pre ++ out ++ gap ++ (c :: s) ++ 0#8 :: rest) (pre.length + out.length) x = some (pre ++ (out ++ [x]) ++ g' ++ v ++ 0#8 :: rest) := by
      intro x u v e hu
      rw [e]
      have : gap ++ u ≠ [] := by
        intro hh
        exact hu (List.append_eq_nil_iff.1 hh).2
      obtain ⟨y, g', hg⟩ := List.exists_cons_of_ne_nil this
      refine ⟨g', ?_, ?_⟩
      · have := congrArg List.length hg
        simp only [List.length_append, List.length_cons] at this
        omega
      · have e2 : pre ++ out ++ gap ++ (u ++ v) ++ 0#8 :: rest = (pre ++ out) ++ y :: (g' ++ v ++ 0#8 :: rest) := by
          rw [show pre ++ out ++ gap ++ (u ++ v) ++ 0#8 :: rest = pre ++ out ++ (gap ++ u) ++ v ++ 0#8 :: rest by simp, hg]
          simp
        rw [e2, ← List.length_append, wr_at]
        simp
    have copyOk : (∀ a b x y r, c = 37#8 → s = a :: b :: r → CodeHex a x → ¬ CodeHex b y) →
        ∃ d junk, Dec CodeHex (c :: s) d ∧ out.length + d.length + junk.length = out.length + gap.length + (c :: s).length ∧
          ((wr (pre ++ out ++ gap ++ (c :: s) ++ 0#8 :: rest) (pre.length + out.length) c).bind fun m =>
            decLoop (pre.length + out.length + gap.length + (c :: s).length) n m (pre.length + out.length + 1) (pre.length + out.length + gap.length + 1)) =
            some (pre ++ out ++ d ++ 0#8 :: (junk ++ rest)) := by
      intro hp
      obtain ⟨g', hg, hw⟩ := wrx c [c] s rfl (by simp)
      obtain ⟨d, junk, hd, hlen, hr⟩ := decLoop_spec n s pre (out ++ [c]) g' rest hs hl
      refine ⟨c :: d, junk, .plain c s d hp hd, ?_, ?_⟩
      · simp only [List.length_append, List.length_cons, List.length_nil] at hlen hg ⊢
        omega
      · rw [hw, Option.bind_some]
        simp only [List.length_append, List.length_cons, List.length_nil] at hr hg ⊢
        rw [show pre.length + (out.length + (0 + 1)) + g'.length + s.length = pre.length + out.length + gap.length + (s.length + 1) by omega,
          show pre.length + (out.length + (0 + 1)) = pre.length + out.length + 1 by omega,
          show pre.length + out.length + 1 + g'.length = pre.length + out.length + gap.length + 1 by omega] at hr
        rw [hr]
        simp
    rw [decLoop, e1]
    simp only
    rw [if_neg hc]
    by_cases hp : c = 37#8 ∧ pre.length + out.length + gap.length + 2 < pre.length + out.length + gap.length + (c :: s).length
    · rw [if_pos hp]
      obtain ⟨a, s1, rfl⟩ := List.exists_cons_of_length_pos (l := s) (by have := hp.2; simp only [List.length_cons] at this; omega)
      obtain ⟨b, s2, rfl⟩ := List.exists_cons_of_length_pos (l := s1) (by have := hp.2; simp only [List.length_cons] at this; omega)
      have e2 : (pre ++ out ++ gap ++ (c :: a :: b :: s2) ++ 0#8 :: rest)[pre.length + out.length + gap.length + 1]? = some a := by
        have := get_at (pre ++ out ++ gap ++ [c]) a (b :: s2 ++ 0#8 :: rest)
        simpa [Nat.add_assoc] using this
      have e3 : (pre ++ out ++ gap ++ (c :: a :: b :: s2) ++ 0#8 :: rest)[pre.length + out.length + gap.length + 2]? = some b := by
        have := get_at (pre ++ out ++ gap ++ [c, a]) b (s2 ++ 0#8 :: rest)
        simpa [Nat.add_assoc] using this
      rw [e2, e3]
      simp only
      by_cases hx : a ≠ 0#8 ∧ b ≠ 0#8 ∧ isx a = true ∧ isx b = true
      · rw [if_pos hx]
        obtain ⟨g', hg, hw⟩ := wrx (16#8 * hexval a + hexval b) [c, a, b] s2 rfl (by simp)
        obtain ⟨d, junk, hd, hlen, hr⟩ := decLoop_spec n s2 pre (out ++ [16#8 * hexval a + hexval b]) g' rest
          (fun h => hs (List.mem_cons_of_mem _ (List.mem_cons_of_mem _ h))) (by simp only [List.length_cons] at hl; omega)
        refine ⟨(16#8 * hexval a + hexval b) :: d, junk, ?_, ?_, ?_⟩
        · rw [hp.1]; exact .pct a b _ _ s2 d ⟨hx.2.2.1, rfl⟩ ⟨hx.2.2.2, rfl⟩ hd
        · simp only [List.length_append, List.length_cons, List.length_nil] at hlen hg ⊢
          omega
        · rw [hw, Option.bind_some]
          simp only [List.length_append, List.length_cons, List.length_nil] at hr hg ⊢
          rw [show pre.length + (out.length + (0 + 1)) + g'.length + s2.length = pre.length + out.length + gap.length + (s2.length + 1 + 1 + 1) by omega,
            show pre.length + (out.length + (0 + 1)) = pre.length + out.length + 1 by omega,
            show pre.length + out.length + 1 + g'.length = pre.length + out.length + gap.length + 3 by omega] at hr
          rw [hr]
          simp
      · rw [if_neg hx]
        exact copyOk (by
          intro a' b' x y r _ e ha hb
          simp only [List.cons.injEq] at e
          obtain ⟨rfl, rfl, _⟩ := e
          exact hx ⟨fun e => hs (by rw [e]; exact List.mem_cons_self), fun e => hs (by rw [e]; exact List.mem_cons_of_mem _ List.mem_cons_self), ha.1, hb.1⟩)
    · rw [if_neg hp]
      exact copyOk (by
        intro a b x y r e1 e2 _ _
        refine hp ⟨e1, ?_⟩
        rw [e2]
        simp only [List.length_cons]
        omega)

theorem takeWhile_stop (s rest : List Byte) (h : 0#8 ∉ s) : (s ++ 0#8 :: rest).takeWhile (· ≠ 0#8) = s := by
  rw [List.takeWhile_append_of_pos]
  · simp
  · intro x hx
    simp only [ne_eq, decide_eq_true_eq]
    exact fun e => h (e ▸ hx)

theorem cstr_at (pre s rest : List Byte) (h : 0#8 ∉ s) : cstr (pre ++ s ++ 0#8 :: rest) pre.length = some s := by
  have e : (pre ++ s ++ 0#8 :: rest).drop pre.length = s ++ 0#8 :: rest := by simp
  unfold cstr
  rw [e, if_pos (by simp), takeWhile_stop s rest h]

theorem urldecode_spec (pre s rest : List Byte) (h : 0#8 ∉ s) :
    ∃ d junk, Dec CodeHex s d ∧ d.length + junk.length = s.length ∧
      urldecode (pre ++ s ++ 0#8 :: rest) pre.length = some (pre ++ d ++ 0#8 :: (junk ++ rest)) := by
  unfold urldecode
  rw [cstr_at pre s rest h, Option.bind_some]
  by_cases hs : s = []
  · subst hs
    exact ⟨[], [], .nil, rfl, by simp⟩
  · rw [if_neg hs]
    obtain ⟨d, junk, hd, hl, hr⟩ := decLoop_spec (s.length + 1) s pre [] [] rest h (by omega)
    refine ⟨d, junk, hd, by simpa using hl, ?_⟩
    simpa using hr

/-- The position `i` of the buffer has the decoded text. -/
def Reads (m : List Byte) (i : Nat) (raw : Str) : Prop := ∃ d v, Dec CodeHex raw d ∧ Cut d v ∧ cstr m i = some v

theorem reads_at (pre d rest : List Byte) (raw : Str) (h : Dec CodeHex raw d) :
    Reads (pre ++ d ++ 0#8 :: rest) pre.length raw := by
  have e : (pre ++ d ++ 0#8 :: rest).drop pre.length = d ++ 0#8 :: rest := by simp
  have hc : cstr (pre ++ d ++ 0#8 :: rest) pre.length = some ((d ++ 0#8 :: rest).takeWhile (· ≠ 0#8)) := by
    unfold cstr
    rw [e, if_pos (by simp)]
  by_cases h0 : 0#8 ∈ d
  · obtain ⟨a, b, rfl, ha⟩ := List.eq_append_cons_of_mem h0
    refine ⟨_, a, h, ⟨0#8 :: b, rfl, ha, Or.inr rfl⟩, ?_⟩
    rw [hc, List.append_assoc, List.cons_append, takeWhile_stop a _ ha]
  · exact ⟨_, d, h, ⟨[], by simp, h0, Or.inl rfl⟩, by rw [hc, takeWhile_stop d _ h0]⟩

/-- One round of the loop: the parameter `p` and its value `v`, which ends in `&` or at the end of the query. -/
theorem round (p v t pre : List Byte) (hp : 0#8 ∉ p) (hv : 0#8 ∉ v) :
    ∃ dp dv j1 j2, Dec CodeHex p dp ∧ Dec CodeHex v dv ∧ dp.length + j1.length = p.length ∧ dv.length + j2.length = v.length ∧
      ((urldecode (pre ++ p ++ 0#8 :: (v ++ 0#8 :: t)) pre.length).bind fun m => urldecode m (pre.length + p.length + 1)) =
        some (pre ++ dp ++ 0#8 :: j1 ++ dv ++ 0#8 :: (j2 ++ t)) := by
  obtain ⟨dp, j1, h1, h2, h3⟩ := urldecode_spec pre p (v ++ 0#8 :: t) hp
  obtain ⟨dv, j2, h4, h5, h6⟩ := urldecode_spec (pre ++ dp ++ 0#8 :: j1) v t hv
  refine ⟨dp, dv, j1, j2, h1, h4, h2, h5, ?_⟩
  rw [h3, Option.bind_some]
  have e : (pre ++ dp ++ 0#8 :: j1).length = pre.length + p.length + 1 := by simp; omega
  rw [e] at h6
  rw [← h6]
  simp

theorem parse_ok (ql : Nat) (q : Str) (raw : List (Str × Str)) (h : Pairs q raw) :
    ∀ (n count : Nat) (pre rest : List Byte), 0#8 ∉ q → q.length < n → count + raw.length ≤ 100 → ql = pre.length + q.length →
      ∃ body l, body.length = q.length + 1 ∧ parseLoop ql n (pre ++ q ++ 0#8 :: rest) pre.length count = some (pre ++ body ++ rest, some l) ∧
        List.Forall₂ (fun x r => Reads (pre ++ body ++ rest) x.1 r.1 ∧ Reads (pre ++ body ++ rest) x.2 r.2) l raw := by
  induction h with
  | nil =>
    intro n count pre rest _ hn _ hq
    obtain ⟨n, rfl⟩ : ∃ k, n = k + 1 := ⟨n - 1, by omega⟩
    refine ⟨[0#8], [], rfl, ?_, .nil⟩
    rw [parseLoop, if_pos (by rw [hq]; simp)]
    simp
  | last p v h1 h2 h3 =>
    intro n count pre rest h0 hn hc hq
    obtain ⟨n, rfl⟩ : ∃ k, n = k + 1 + 1 := ⟨n - 2, by simp at hn; omega⟩
    have hp : 0#8 ∉ p := fun h => h0 (by simp [h])
    have hv : 0#8 ∉ v := fun h => h0 (by simp [h])
    have hlv : 0 < v.length := List.length_pos_iff.2 h3
    obtain ⟨dp, dv, j1, j2, r1, r2, r3, r4, r5⟩ := round p v rest pre hp hv
    refine ⟨dp ++ 0#8 :: j1 ++ dv ++ 0#8 :: j2, [(pre.length, pre.length + p.length + 1)], by simp; omega, ?_, ?_⟩
    · rw [parseLoop, if_neg (by rw [hq]; simp)]
      rw [show ql - pre.length = (p ++ 61#8 :: v).length by omega, scan_hit 61#8 p v pre (0#8 :: rest) h1, Option.bind_some]
      simp only
      rw [if_neg (by simp at hq; omega)]
      have e1 := scan_miss 38#8 v (pre ++ p ++ [0#8]) (0#8 :: rest) h2
      rw [show (pre ++ p ++ [0#8]).length = pre.length + p.length + 1 by simp; omega,
        show pre ++ p ++ [0#8] ++ v ++ 0#8 :: rest = pre ++ p ++ 0#8 :: (v ++ 0#8 :: rest) by simp] at e1
      rw [show ql - (pre.length + p.length + 1) = v.length by simp at hq; omega, e1, Option.bind_some]
      simp only
      rw [if_neg (by unfold maxParams; simp at hc; omega)]
      obtain ⟨m, hm, hm2⟩ := Option.bind_eq_some_iff.1 r5
      rw [hm, Option.bind_some, hm2, Option.bind_some, parseLoop, if_pos (by simp at hq; omega)]
      simp
    · refine .cons ⟨?_, ?_⟩ .nil
      · have := reads_at pre dp (j1 ++ dv ++ 0#8 :: j2 ++ rest) p r1
        simpa using this
      · have := reads_at (pre ++ dp ++ 0#8 :: j1) dv (j2 ++ rest) v r2
        rw [show (pre ++ dp ++ 0#8 :: j1).length = pre.length + p.length + 1 by simp; omega] at this
        simpa using this
  | cons p v q ps h1 h2 _ ih =>
    intro n count pre rest h0 hn hc hq
    obtain ⟨n, rfl⟩ : ∃ k, n = k + 1 := ⟨n - 1, by simp at hn; omega⟩
    have hp : 0#8 ∉ p := fun h => h0 (by simp [h])
    have hv : 0#8 ∉ v := fun h => h0 (by simp [h])
    obtain ⟨dp, dv, j1, j2, r1, r2, r3, r4, r5⟩ := round p v (q ++ 0#8 :: rest) pre hp hv
    have el : (pre ++ dp ++ 0#8 :: j1 ++ dv ++ 0#8 :: j2).length = pre.length + p.length + 1 + v.length + 1 := by simp; omega
    obtain ⟨body, l, b1, b2, b3⟩ := ih n (count + 1) (pre ++ dp ++ 0#8 :: j1 ++ dv ++ 0#8 :: j2) rest (fun h => h0 (by simp [h])) (by simp at hn; omega)
      (by simp at hc; omega) (by rw [el]; simp at hq; omega)
    refine ⟨dp ++ 0#8 :: j1 ++ dv ++ 0#8 :: j2 ++ body, (pre.length, pre.length + p.length + 1) :: l, by simp; omega, ?_, ?_⟩
    · rw [parseLoop, if_neg (by rw [hq]; simp)]
      rw [show ql - pre.length = (p ++ 61#8 :: (v ++ 38#8 :: q)).length by omega, scan_hit 61#8 p (v ++ 38#8 :: q) pre (0#8 :: rest) h1, Option.bind_some]
      simp only
      rw [if_neg (by simp at hq; omega)]
      have e1 := scan_hit 38#8 v q (pre ++ p ++ [0#8]) (0#8 :: rest) h2
      rw [show (pre ++ p ++ [0#8]).length = pre.length + p.length + 1 by simp; omega,
        show pre ++ p ++ [0#8] ++ (v ++ 38#8 :: q) ++ 0#8 :: rest = pre ++ p ++ 0#8 :: (v ++ 38#8 :: q ++ 0#8 :: rest) by simp,
        show pre ++ p ++ [0#8] ++ v ++ 0#8 :: (q ++ 0#8 :: rest) = pre ++ p ++ 0#8 :: (v ++ 0#8 :: (q ++ 0#8 :: rest)) by simp] at e1
      rw [show ql - (pre.length + p.length + 1) = (v ++ 38#8 :: q).length by simp at hq ⊢; omega, e1, Option.bind_some]
      simp only
      rw [if_neg (by unfold maxParams; simp at hc; omega)]
      obtain ⟨m, hm, hm2⟩ := Option.bind_eq_some_iff.1 r5
      rw [hm, Option.bind_some, hm2, Option.bind_some]
      rw [el, show pre ++ dp ++ 0#8 :: j1 ++ dv ++ 0#8 :: j2 ++ q ++ 0#8 :: rest = pre ++ dp ++ 0#8 :: j1 ++ dv ++ 0#8 :: (j2 ++ (q ++ 0#8 :: rest)) by simp] at b2
      rw [b2]
      simp
    · rw [show pre ++ dp ++ 0#8 :: j1 ++ dv ++ 0#8 :: j2 ++ body ++ rest = pre ++ (dp ++ 0#8 :: j1 ++ dv ++ 0#8 :: j2 ++ body) ++ rest by simp] at b3
      refine .cons ⟨?_, ?_⟩ b3
      · have := reads_at pre dp (j1 ++ dv ++ 0#8 :: j2 ++ body ++ rest) p r1
        simpa using this
      · have := reads_at (pre ++ dp ++ 0#8 :: j1) dv (j2 ++ body ++ rest) v r2
        rw [show (pre ++ dp ++ 0#8 :: j1).length = pre.length + p.length + 1 by simp; omega] at this
        simpa using this

theorem parse_bad (ql : Nat) : ∀ (n : Nat) (q : Str) (count : Nat) (pre rest : List Byte), 0#8 ∉ q → q.length < n → count ≤ 100 → ql = pre.length + q.length →
    (¬ ∃ raw, Pairs q raw ∧ count + raw.length ≤ 100) →
      ∃ body, body.length = q.length + 1 ∧ parseLoop ql n (pre ++ q ++ 0#8 :: rest) pre.length count = some (pre ++ body ++ rest, none)
  | 0, q, _, _, _, _, hn, _, _, _ => by omega
  | n + 1, q, count, pre, rest, h0, hn, hc, hq, hb => by
    have hne : q ≠ [] := fun e => hb ⟨[], e ▸ .nil, by simpa using hc⟩
    have hql : 0 < q.length := List.length_pos_iff.2 hne
    rw [parseLoop, if_neg (by omega), show ql - pre.length = q.length by omega]
    by_cases h1 : 61#8 ∈ q
    · obtain ⟨p, w, rfl, hp1⟩ := List.eq_append_cons_of_mem h1
      rw [scan_hit 61#8 p w pre (0#8 :: rest) hp1, Option.bind_some]
      simp only
      have hp : 0#8 ∉ p := fun h => h0 (by simp [h])
      by_cases hw : w = []
      · subst hw
        rw [if_pos (by simp at hq; omega)]
        exact ⟨p ++ [0#8, 0#8], by simp, by simp⟩
      have hlw : 0 < w.length := List.length_pos_iff.2 hw
      rw [if_neg (by simp at hq; omega)]
      by_cases h2 : 38#8 ∈ w
      · obtain ⟨v, q, rfl, hv1⟩ := List.eq_append_cons_of_mem h2
        have hv : 0#8 ∉ v := fun h => h0 (by simp [h])
        have e1 := scan_hit 38#8 v q (pre ++ p ++ [0#8]) (0#8 :: rest) hv1
        rw [show (pre ++ p ++ [0#8]).length = pre.length + p.length + 1 by simp; omega,
          show pre ++ p ++ [0#8] ++ (v ++ 38#8 :: q) ++ 0#8 :: rest = pre ++ p ++ 0#8 :: (v ++ 38#8 :: q ++ 0#8 :: rest) by simp,
          show pre ++ p ++ [0#8] ++ v ++ 0#8 :: (q ++ 0#8 :: rest) = pre ++ p ++ 0#8 :: (v ++ 0#8 :: (q ++ 0#8 :: rest)) by simp] at e1
        rw [show ql - (pre.length + p.length + 1) = (v ++ 38#8 :: q).length by simp at hq ⊢; omega, e1, Option.bind_some]
        simp only
        by_cases hm : maxParams ≤ count
        · rw [if_pos hm]
          exact ⟨p ++ 0#8 :: (v ++ 0#8 :: (q ++ [0#8])), by simp; omega, by simp⟩
        rw [if_neg hm]
        obtain ⟨dp, dv, j1, j2, r1, r2, r3, r4, r5⟩ := round p v (q ++ 0#8 :: rest) pre hp hv
        obtain ⟨m, hm1, hm2⟩ := Option.bind_eq_some_iff.1 r5
        rw [hm1, Option.bind_some, hm2, Option.bind_some]
        have el : (pre ++ dp ++ 0#8 :: j1 ++ dv ++ 0#8 :: j2).length = pre.length + p.length + 1 + v.length + 1 := by simp; omega
        obtain ⟨body, b1, b2⟩ := parse_bad ql n q (count + 1) (pre ++ dp ++ 0#8 :: j1 ++ dv ++ 0#8 :: j2) rest (fun h => h0 (by simp [h])) (by simp at hn; omega)
          (by unfold maxParams at hm; omega) (by rw [el]; simp at hq; omega)
          (fun ⟨raw, g1, g2⟩ => hb ⟨(p, v) :: raw, .cons p v q raw hp1 hv1 g1, by simp; omega⟩)
        rw [el, show pre ++ dp ++ 0#8 :: j1 ++ dv ++ 0#8 :: j2 ++ q ++ 0#8 :: rest = pre ++ dp ++ 0#8 :: j1 ++ dv ++ 0#8 :: (j2 ++ (q ++ 0#8 :: rest)) by simp] at b2
        rw [b2]
        exact ⟨dp ++ 0#8 :: j1 ++ dv ++ 0#8 :: j2 ++ body, by simp; omega, by simp⟩
      · have e1 := scan_miss 38#8 w (pre ++ p ++ [0#8]) (0#8 :: rest) h2
        rw [show (pre ++ p ++ [0#8]).length = pre.length + p.length + 1 by simp; omega,
          show pre ++ p ++ [0#8] ++ w ++ 0#8 :: rest = pre ++ p ++ 0#8 :: (w ++ 0#8 :: rest) by simp] at e1
        rw [show ql - (pre.length + p.length + 1) = w.length by simp at hq; omega, e1, Option.bind_some]
        simp only
        have hm : maxParams ≤ count := by
          unfold maxParams
          by_cases hh : 100 ≤ count
          · exact hh
          · exact absurd ⟨_, Pairs.last p w hp1 h2 hw, by simp; omega⟩ hb
        rw [if_pos hm]
        exact ⟨p ++ 0#8 :: (w ++ [0#8]), by simp; omega, by simp⟩
    · rw [scan_miss 61#8 q pre (0#8 :: rest) h1, Option.bind_some]
      simp only
      rw [if_pos (by omega)]
      exact ⟨q ++ [0#8], by simp, by simp⟩

/-- C73 (safety): whatever the query, nothing outside of the query and its final 0 is read or written. -/
theorem C73_safe (q rest : List Byte) (h0 : 0#8 ∉ q) :
    ∃ body r, body.length = q.length + 1 ∧ parseQuery (q ++ 0#8 :: rest) q.length = some (body ++ rest, r) := by
  by_cases h : ∃ raw, Pairs q raw ∧ 0 + raw.length ≤ 100
  · obtain ⟨raw, h1, h2⟩ := h
    obtain ⟨body, l, b1, b2, _⟩ := parse_ok q.length q raw h1 (q.length + 1) 0 [] rest h0 (by omega) h2 (by simp)
    exact ⟨body, some l, b1, b2⟩
  · obtain ⟨body, b1, b2⟩ := parse_bad q.length (q.length + 1) q 0 [] rest h0 (by omega) (by omega) (by simp) h
    exact ⟨body, none, b1, b2⟩

/-- C73 (refusal): a query that is not a list of at most 100 pairs is refused. -/
theorem C73_refused (q rest : List Byte) (h0 : 0#8 ∉ q) (h : ¬ ∃ raw, Pairs q raw ∧ raw.length ≤ 100) :
    ∃ m, parseQuery (q ++ 0#8 :: rest) q.length = some (m, none) := by
  obtain ⟨body, _, b2⟩ := parse_bad q.length (q.length + 1) q 0 [] rest h0 (by omega) (by omega) (by simp) (by simpa using h)
  exact ⟨_, b2⟩

theorem hex_isx {a x : Byte} (h : Hex a x) : isx a = true ∧ (a.toNat < 97 → x = hexval a) := by
  cases h with
  | digit n hn =>
    have : ∀ n : Fin 10, isx (BitVec.ofNat 8 (48 + n.val)) = true ∧ BitVec.ofNat 8 n.val = hexval (BitVec.ofNat 8 (48 + n.val)) := by decide
    exact ⟨(this ⟨n, hn⟩).1, fun _ => (this ⟨n, hn⟩).2⟩
  | upper n hn =>
    have : ∀ n : Fin 6, isx (BitVec.ofNat 8 (65 + n.val)) = true ∧ BitVec.ofNat 8 (10 + n.val) = hexval (BitVec.ofNat 8 (65 + n.val)) := by decide
    exact ⟨(this ⟨n, hn⟩).1, fun _ => (this ⟨n, hn⟩).2⟩
  | lower n hn =>
    have : ∀ n : Fin 6, isx (BitVec.ofNat 8 (97 + n.val)) = true ∧ ¬ (BitVec.ofNat 8 (97 + n.val)).toNat < 97 := by decide
    exact ⟨(this ⟨n, hn⟩).1, fun h => absurd h (this ⟨n, hn⟩).2⟩

theorem isx_hex {a : Byte} (h : isx a = true) : ∃ x, Hex a x := by
  unfold isx at h
  have h := of_decide_eq_true h
  have e : ∀ k, a.toNat = k → a = BitVec.ofNat 8 k := fun k hk => by rw [← hk]; simp
  rcases h with h | h | h
  · rw [e (48 + (a.toNat - 48)) (by omega)]; exact ⟨_, .digit _ (by omega)⟩
  · rw [e (65 + (a.toNat - 65)) (by omega)]; exact ⟨_, .upper _ (by omega)⟩
  · rw [e (97 + (a.toNat - 97)) (by omega)]; exact ⟨_, .lower _ (by omega)⟩

/-- No code of the text has a digit that is a small letter. -/
def NoLower (s : Str) : Prop := ∀ u a b x y w, s = u ++ 37#8 :: a :: b :: w → Hex a x → Hex b y → a.toNat < 97 ∧ b.toNat < 97

theorem dec_hex {s d : Str} (h : Dec CodeHex s d) : NoLower s → Dec Hex s d := by
  have tl : ∀ (c : Byte) (s : Str), NoLower (c :: s) → NoLower s := fun c s h u a b x y w e => h (c :: u) a b x y w (by rw [e]; rfl)
  induction h with
  | nil => intro _; exact .nil
  | pct a b x y s d ha hb _ ih =>
    intro hn
    obtain ⟨x', hx⟩ := isx_hex ha.1
    obtain ⟨y', hy⟩ := isx_hex hb.1
    have hl := hn [] a b x' y' s rfl hx hy
    rw [ha.2, hb.2, ← (hex_isx hx).2 hl.1, ← (hex_isx hy).2 hl.2]
    exact .pct a b x' y' s d hx hy (ih (tl _ _ (tl _ _ (tl _ _ hn))))
  | plain c s d hp _ ih =>
    intro hn
    refine .plain c s d ?_ (ih (tl _ _ hn))
    intro a b x y r e1 e2 hx hy
    exact hp a b _ _ r e1 e2 ⟨(hex_isx hx).1, rfl⟩ ⟨(hex_isx hy).1, rfl⟩

/-- C73: a query of at most 100 pairs is read as these, decoded; the texts end at a byte 0 that is encoded as %00. Missing: digits a to f in codes, which are decoded wrongly
(`C73_counterexample`). -/
theorem C73_partial (q rest : List Byte) (h0 : 0#8 ∉ q) (raw : List (Str × Str)) (h : Pairs q raw) (hn : raw.length ≤ 100)
    (hl : ∀ r ∈ raw, NoLower r.1 ∧ NoLower r.2) :
    ∃ m l, parseQuery (q ++ 0#8 :: rest) q.length = some (m, some l) ∧
      List.Forall₂ (fun x r => (∃ d v, Dec Hex r.1 d ∧ Cut d v ∧ cstr m x.1 = some v) ∧ (∃ d v, Dec Hex r.2 d ∧ Cut d v ∧ cstr m x.2 = some v)) l raw := by
  obtain ⟨body, l, _, b2, b3⟩ := parse_ok q.length q raw h (q.length + 1) 0 [] rest h0 (by omega) (by omega) (by simp)
  refine ⟨_, l, b2, ?_⟩
  clear b2 h hn
  induction b3 with
  | nil => exact .nil
  | cons hx _ ih =>
    obtain ⟨⟨d, v, h1, h2, h3⟩, ⟨d', v', h1', h2', h3'⟩⟩ := hx
    have hl0 := hl _ List.mem_cons_self
    exact .cons ⟨⟨d, v, dec_hex h1 hl0.1, h2, h3⟩, ⟨d', v', dec_hex h1' hl0.2, h2', h3'⟩⟩ (ih (fun r hr => hl r (List.mem_cons_of_mem _ hr)))

theorem dec_unique {s d : Str} (h : Dec CodeHex s d) : ∀ {d' : Str}, Dec CodeHex s d' → d = d' := by
  induction h with
  | nil => intro d' h; cases h; rfl
  | pct a b x y s d ha hb _ ih =>
    intro d' h'
    cases h' with
    | pct _ _ x' y' _ d' ha' hb' h2 => rw [ih h2, ha.2, hb.2, ha'.2, hb'.2]
    | plain _ _ d' hp h2 => exact absurd hb (hp a b x y s rfl rfl ha)
  | plain c s d hp _ ih =>
    intro d' h'
    cases h' with
    | pct a b x' y' s d' ha' hb' h2 => exact absurd hb' (hp a b x' y' s rfl rfl ha')
    | plain _ _ d' hp h2 => rw [ih h2]

theorem enc_dec {s t : Str} (h : Enc s t) : Dec CodeHex t s ∧ 38#8 ∉ t ∧ 61#8 ∉ t ∧ (0#8 ∉ s → 0#8 ∉ t) ∧ (s ≠ [] → t ≠ []) := by
  have hx : ∀ {a x : Byte}, Hex a x → a ≠ 38#8 ∧ a ≠ 61#8 ∧ a ≠ 0#8 := fun h => by
    have := (hex_isx h).1
    refine ⟨?_, ?_, ?_⟩ <;> (intro e; rw [e] at this; revert this; decide)
  induction h with
  | nil => exact ⟨.nil, by simp, by simp, by simp, by simp⟩
  | plain c s t h1 h2 h3 _ ih =>
    refine ⟨.plain c t s (fun _ _ _ _ _ e => absurd e h1) ih.1, ?_, ?_, ?_, by simp⟩
    · simp [Ne.symm h2, ih.2.1]
    · simp [Ne.symm h3, ih.2.2.1]
    · intro h; simp only [List.mem_cons, not_or] at h ⊢; exact ⟨h.1, ih.2.2.2.1 h.2⟩
  | pct c a b x y s t ha hb hla hlb hc _ ih =>
    refine ⟨?_, ?_, ?_, ?_, by simp⟩
    · rw [hc]; exact .pct a b x y t s ⟨(hex_isx ha).1, (hex_isx ha).2 hla⟩ ⟨(hex_isx hb).1, (hex_isx hb).2 hlb⟩ ih.1
    · simp [Ne.symm (hx ha).1, Ne.symm (hx hb).1, ih.2.1]
    · simp [Ne.symm (hx ha).2.1, Ne.symm (hx hb).2.1, ih.2.2.1]
    · intro h; simp only [List.mem_cons, not_or] at h ⊢
      exact ⟨by decide, Ne.symm (hx ha).2.2, Ne.symm (hx hb).2.2, ih.2.2.2.1 h.2⟩

theorem query_pairs {ps : List (Str × Str)} {q : Str} (h : Query ps q) : (∀ p ∈ ps, 0#8 ∉ p.1 ∧ 0#8 ∉ p.2) →
    0#8 ∉ q ∧ ∃ raw, Pairs q raw ∧ List.Forall₂ (fun p r => Dec CodeHex r.1 p.1 ∧ Dec CodeHex r.2 p.2) ps raw := by
  induction h with
  | last p v p' v' hp hv hne =>
    intro h0
    have h0 := h0 _ List.mem_cons_self
    have e1 := enc_dec hp
    have e2 := enc_dec hv
    refine ⟨?_, [(p', v')], .last p' v' e1.2.2.1 e2.2.1 (e2.2.2.2.2 hne), .cons ⟨e1.1, e2.1⟩ .nil⟩
    simp [e1.2.2.2.1 h0.1, e2.2.2.2.1 h0.2]
  | cons p v p' v' ps q hp hv _ ih =>
    intro h0
    obtain ⟨i0, raw, i1, i2⟩ := ih (fun p hp => h0 p (List.mem_cons_of_mem _ hp))
    have h0 := h0 _ List.mem_cons_self
    have e1 := enc_dec hp
    have e2 := enc_dec hv
    refine ⟨?_, (p', v') :: raw, .cons p' v' q raw e1.2.2.1 e2.2.1 i1, .cons ⟨e1.1, e2.1⟩ i2⟩
    simp [e1.2.2.2.1 h0.1, e2.2.2.2.1 h0.2, i0]

/-- C73 (round trip): up to 100 pairs of texts, of which the last has a value, sent in percent encoding with capital letters, arrive as they were. -/
theorem C73_roundtrip (ps : List (Str × Str)) (q rest : List Byte) (h : Query ps q) (h0 : ∀ p ∈ ps, 0#8 ∉ p.1 ∧ 0#8 ∉ p.2) (hn : ps.length ≤ 100) :
    ∃ m l, parseQuery (q ++ 0#8 :: rest) q.length = some (m, some l) ∧
      List.Forall₂ (fun x p => cstr m x.1 = some p.1 ∧ cstr m x.2 = some p.2) l ps := by
  obtain ⟨hq, raw, h1, h2⟩ := query_pairs h h0
  obtain ⟨body, l, _, b2, b3⟩ := parse_ok q.length q raw h1 (q.length + 1) 0 [] rest hq (by omega) (by rw [← h2.length_eq]; omega) (by simp)
  refine ⟨_, l, b2, ?_⟩
  have key : ∀ (m : List Byte) (i : Nat) (r p : Str), Reads m i r → Dec CodeHex r p → 0#8 ∉ p → cstr m i = some p := by
    intro m i r p ⟨d, v, g1, ⟨w, g2, g3, g4⟩, g5⟩ g6 g7
    have := dec_unique g1 g6
    subst this
    rcases g4 with g4 | g4
    · subst g4; rw [g5, g2, List.append_nil]
    · exfalso
      cases w with
      | nil => cases g4
      | cons x w =>
        simp only [List.head?_cons, Option.some.injEq] at g4
        subst g4
        exact g7 (by rw [g2]; simp)
  clear b2 h h1 hn
  induction h2 generalizing l with
  | nil => cases b3; exact .nil
  | cons hx _ ih =>
    cases b3 with
    | cons hy hr =>
      have h00 := h0 _ List.mem_cons_self
      exact .cons ⟨key _ _ _ _ hy.1 hx.1 h00.1, key _ _ _ _ hy.2 hx.2 h00.2⟩ (ih (fun p hp => h0 p (List.mem_cons_of_mem _ hp)) _ hr)

/-- C73 (length): a query that is too long is refused, and all others are read without any access outside of the buffer. Missing: the programs that are not the server write one byte
too many for a query of exactly 2000 bytes (`C73_length_counterexample`). -/
theorem C73_length_partial (isserver : Bool) (q : Str) (h0 : 0#8 ∉ q) (h : isserver = true ∨ q.length ≠ maxQuery) :
    (maxQuery < q.length ∧ takeQuery isserver q = some none) ∨
      (q.length ≤ maxQuery ∧ ∃ m r, takeQuery isserver q = some (some m) ∧ parseQuery m q.length = some r) := by
  unfold takeQuery
  by_cases h1 : maxQuery < q.length
  · exact Or.inl ⟨h1, if_pos h1⟩
  · refine Or.inr ⟨by omega, ?_⟩
    rw [if_neg h1]
    by_cases h2 : isserver = true
    · rw [if_pos h2]
      obtain ⟨body, r, _, hr⟩ := C73_safe q [] h0
      exact ⟨_, _, rfl, hr⟩
    · rw [if_neg h2, if_pos (by have := h.resolve_left h2; omega)]
      obtain ⟨body, r, _, hr⟩ := C73_safe q (List.replicate (maxQuery - q.length - 1) 0#8) h0
      exact ⟨_, _, rfl, by simpa using hr⟩

/-- C73 (counterexample): a query of 2000 bytes given to the program that is not the server is written past the end of the buffer. -/
theorem C73_length_counterexample : takeQuery false (List.replicate 2000 97#8) = none := by
  unfold takeQuery maxQuery
  rw [List.length_replicate, if_neg (by omega), if_neg (by decide), if_neg (by omega)]

/-- C73 (counterexample): `a=%2f` is read as the value `v` instead of `/`, and `a=1&b=` is refused. -/
theorem C73_counterexample :
    (∃ m, parseQuery (asc "a=%2f" ++ [0#8]) 5 = some (m, some [(0, 2)]) ∧ cstr m 2 = some (asc "v")) ∧
      Pairs (asc "a=%2f") [(asc "a", asc "%2f")] ∧ Dec Hex (asc "%2f") (asc "/") ∧
      ∃ m, parseQuery (asc "a=1&b=" ++ [0#8]) 6 = some (m, none) := by
  refine ⟨⟨[97#8, 0#8, 118#8, 0#8, 102#8, 0#8], by decide +kernel, by decide +kernel⟩, .last (asc "a") (asc "%2f") (by decide) (by decide) (by decide), ?_, ?_⟩
  · have := Dec.pct (hex := Hex) _ _ _ _ [] [] (.digit 2 (by decide)) (.lower 5 (by decide)) .nil
    exact this
  · exact ⟨[97#8, 0#8, 49#8, 0#8, 98#8, 0#8, 0#8], by decide +kernel⟩

end WG.Serve
