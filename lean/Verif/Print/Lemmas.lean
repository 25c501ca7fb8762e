import Verif.Print.Spec
/-! # Lemmas about printing -/
namespace WG.Print
open Spec
open WG.Csv (Str Byte asc)

theorem bind_ok {α β : Type} (a : α) (f : α → Res β) : (Res.ok a).bind f = f a := rfl

theorem Spec.Same.refl (b : Buf) (off n : Nat) : Same b b off n := ⟨rfl, fun _ _ => rfl⟩

theorem Spec.Same.trans {b b1 b2 : Buf} {off n : Nat} (h1 : Same b b1 off n) (h2 : Same b1 b2 off n) : Same b b2 off n :=
  ⟨h2.1.trans h1.1, fun i hi => (h2.2 i hi).trans (h1.2 i hi)⟩

theorem Spec.Same.mono {b b1 : Buf} {off n off' n' : Nat} (h : Same b b1 off n) (h1 : off' ≤ off) (h2 : off + n ≤ off' + n') : Same b b1 off' n' :=
  ⟨h.1, fun i hi => h.2 i (by omega)⟩

theorem Spec.Holds.same {b b1 : Buf} {off n off' : Nat} {s : Str} (h : Holds b off' s) (hs : Same b b1 off n) (hd : off' + s.length ≤ off) : Holds b1 off' s := by
  intro i c hc
  have hi : i < s.length := by
    by_contra hx
    rw [List.getElem?_eq_none (by omega)] at hc
    cases hc
  rw [hs.2 _ (by omega)]
  exact h i c hc

theorem Spec.Holds.append {b : Buf} {off : Nat} {s t : Str} (h1 : Holds b off s) (h2 : Holds b (off + s.length) t) : Holds b off (s ++ t) := by
  intro i c hc
  by_cases hi : i < s.length
  · rw [List.getElem?_append_left hi] at hc
    exact h1 i c hc
  · rw [List.getElem?_append_right (by omega)] at hc
    have := h2 (i - s.length) c hc
    rwa [show off + s.length + (i - s.length) = off + i by omega] at this

theorem Spec.Holds.left {b : Buf} {off : Nat} {s t : Str} (h : Holds b off (s ++ t)) : Holds b off s := by
  intro i c hc
  have hi : i < s.length := by
    by_contra hx
    rw [List.getElem?_eq_none (by omega)] at hc
    cases hc
  exact h i c (by rw [List.getElem?_append_left hi]; exact hc)

theorem Spec.CString.append {b : Buf} {off : Nat} {s t : Str} (h1 : Holds b off s) (c1 : Clean s) (h2 : CString b (off + s.length) t) : CString b off (s ++ t) := by
  refine ⟨by rw [List.append_assoc]; exact h1.append h2.1, fun c hc => ?_⟩
  rcases List.mem_append.1 hc with hc | hc
  · exact c1 c hc
  · exact h2.2 c hc

theorem put_ok {b : Buf} {i : Nat} (c : Byte) (h : i < b.length) : ∃ b', put b i c = .ok b' ∧ Same b b' i 1 ∧ Holds b' i [c] := by
  refine ⟨b.set i (some c), if_pos h, ⟨by simp, fun j hj => ?_⟩, ?_⟩
  · rw [List.getElem?_set_ne (by omega)]
  · intro j d hd
    cases j with
    | zero =>
      simp only [List.getElem?_cons_zero, Option.some.injEq] at hd
      subst hd
      simp [h]
    | succ j => simp at hd

theorem puts_ok {s : Str} {b : Buf} {off : Nat} (h : off + s.length ≤ b.length) : ∃ b', puts b off s = .ok b' ∧ Same b b' off s.length ∧ Holds b' off s := by
  induction s generalizing b off with
  | nil => exact ⟨b, rfl, Same.refl _ _ _, fun i c hc => by simp at hc⟩
  | cons c s ih =>
    rw [List.length_cons] at h
    obtain ⟨b1, e1, s1, h1⟩ := put_ok (b := b) (i := off) c (by omega)
    obtain ⟨b2, e2, s2, h2⟩ := ih (b := b1) (off := off + 1) (by rw [s1.1]; omega)
    refine ⟨b2, by rw [puts, e1]; exact e2, (s1.mono (by omega) (by rw [List.length_cons]; omega)).trans (s2.mono (by omega) (by rw [List.length_cons]; omega)), ?_⟩
    exact (h1.same s2 (by simp)).append (t := s) h2

theorem snprintf_ok {t : Str} {b : Buf} {off n : Nat} (hn : 1 ≤ n) (h : off + n ≤ b.length) (ht : Clean t) :
    ∃ b', snprintf b off n t = .ok b' ∧ Same b b' off n ∧ CString b' off (t.take (n - 1)) := by
  have hl : (t.take (n - 1) ++ [0#8]).length ≤ n := by
    rw [List.length_append, List.length_take, List.length_singleton]; omega
  obtain ⟨b1, e1, s1, h1⟩ := puts_ok (s := t.take (n - 1) ++ [0#8]) (b := b) (off := off) (by omega)
  exact ⟨b1, by rw [snprintf, if_neg (by omega)]; exact e1, s1.mono (by omega) (by omega), h1, fun c hc => ht c (List.mem_of_mem_take hc)⟩

theorem cstring_ok {s : Str} {b : Buf} {off : Nat} (h : CString b off s) : cstring (b.drop off) = .ok s := by
  induction s generalizing off with
  | nil =>
    have := h.1 0 0#8 rfl
    rw [Nat.add_zero] at this
    obtain ⟨hl, e⟩ := List.getElem?_eq_some_iff.1 this
    rw [List.drop_eq_getElem_cons hl, e, cstring, if_pos rfl]
  | cons c s ih =>
    have := h.1 0 c rfl
    rw [Nat.add_zero] at this
    obtain ⟨hl, e⟩ := List.getElem?_eq_some_iff.1 this
    have hs : CString b (off + 1) s := by
      refine ⟨fun i d hd => ?_, fun d hd => h.2 d (by simp [hd])⟩
      have := h.1 (i + 1) d (by simpa using hd)
      rwa [show off + (i + 1) = off + 1 + i by omega] at this
    rw [List.drop_eq_getElem_cons hl, e, cstring, if_neg (h.2 c (by simp)), ih hs]
    rfl

theorem strncpy_ok {s : Str} {b : Buf} {off n : Nat} (h : off + n ≤ b.length) (hs : s.length ≤ n) : ∃ b', strncpy b off s n = .ok b' ∧ Same b b' off n ∧ Holds b' off s := by
  have hl : (s.take n ++ List.replicate (n - s.length) 0#8).length = n := by
    rw [List.length_append, List.length_take, List.length_replicate]; omega
  obtain ⟨b1, e1, s1, h1⟩ := puts_ok (s := s.take n ++ List.replicate (n - s.length) 0#8) (b := b) (off := off) (by omega)
  rw [hl] at s1
  have h2 := h1.left
  rw [List.take_of_length_le hs] at h2
  exact ⟨b1, e1, s1, h2⟩

theorem close_ok {b : Buf} {off n : Nat} (hn : 1 ≤ n) (h : off + n ≤ b.length) :
    ∃ b', close b off n = .ok b' ∧ Same b b' off n ∧ CString b' off (if n > 1 then [93#8] else []) := by
  unfold close
  by_cases hc : n > 1
  · obtain ⟨b1, e1, s1, h1⟩ := put_ok (b := b) (i := off) 93#8 (by omega)
    obtain ⟨b2, e2, s2, h2⟩ := put_ok (b := b1) (i := off + 1) 0#8 (by rw [s1.1]; omega)
    rw [if_pos hc, if_pos hc, e1]
    refine ⟨b2, e2, (s1.mono (by omega) (by omega)).trans (s2.mono (by omega) (by omega)), ?_, ?_⟩
    · exact (h1.same s2 (by simp)).append (t := [0#8]) h2
    · intro c hc
      rw [List.mem_singleton] at hc
      subst hc
      decide
  · obtain ⟨b1, e1, s1, h1⟩ := put_ok (b := b) (i := off) 0#8 (by omega)
    rw [if_neg hc, if_neg hc]
    exact ⟨b1, e1, s1.mono (by omega) (by omega), h1, by intro c hc; cases hc⟩

/-- The outcome of a print function: a C string of at most `n - 1` bytes at `off`, nothing changed outside; or a read of bytes that were never written. If the whole text `full` fits (`need`
bytes more than its length) it is the C string. -/
def Outcome (res : Res Buf) (b : Buf) (off n len need : Nat) (full : Str → Prop) : Prop :=
  (res = .uninit ∧ ∀ t, full t → ¬t.length + need ≤ n) ∨
  ∃ b' s, res = .ok b' ∧ Same b b' off n ∧ CString b' off s ∧ s.length + len ≤ n ∧ ∀ t, full t → t.length + need ≤ n → s = t

theorem bracket_clean : Clean (asc "<rec ") ∧ Clean (asc ">") ∧ Clean (asc "[") ∧ Clean (asc "]") ∧ Clean (asc ",") := by
  unfold Clean; decide

theorem Spec.Clean.append {s t : Str} (h1 : Clean s) (h2 : Clean t) : Clean (s ++ t) := by
  intro c hc
  rcases List.mem_append.1 hc with hc | hc
  · exact h1 c hc
  · exact h2 c hc

variable {ρ : Type} {fmtF : Word → Str} {F : ρ → List (PV ρ)}

/-- The three functions, by induction on the length of the buffer. -/
def ValueOk (fmtF : Word → Str) (F : ρ → List (PV ρ)) (n : Nat) : Prop := ∀ (b : Buf) (off : Nat) (v : PV ρ), Good fmtF v → 2 ≤ n → off + n ≤ b.length →
  Outcome (snprintValue fmtF F b off v n) b off n 2 2 (Prints fmtF F v)

theorem loop_ok (hF : ∀ r, ∀ v ∈ F r, Good fmtF v) (n : Nat) (ih : ∀ m, m ≤ n → ValueOk fmtF F m) (vs : List (PV ρ)) (hv : ∀ v ∈ vs, Good fmtF v) :
    ∀ (m : Nat) (b : Buf) (off : Nat) (strbuf : Buf) (first : Bool), m ≤ n → 2 ≤ m → m ≤ strbuf.length → off + m ≤ b.length →
    Outcome (recordLoop fmtF F b off strbuf m vs first) b off m 1 1 (fun t => ∃ u, Fields fmtF F vs first u ∧ t = u ++ asc "]") := by
  induction vs with
  | nil =>
    intro m b off strbuf first _ h2 _ h4
    rw [recordLoop]
    obtain ⟨b1, e1, s1, h1⟩ := close_ok (b := b) (off := off) (n := m) (by omega) h4
    rw [if_pos (by omega)] at h1
    refine Or.inr ⟨b1, _, e1, s1, h1, by simp; omega, ?_⟩
    rintro t ⟨u, hu, rfl⟩ _
    cases hu
    rfl
  | cons v vs ihv =>
    intro m b off strbuf first h1 h2 h3 h4
    have hcl : commaLen first ≤ 1 := by unfold commaLen; split_ifs <;> omega
    rw [recordLoop]
    rcases ih m h1 strbuf 0 v (hv v (by simp)) h2 (by omega) with ⟨e, hn⟩ | ⟨sb, s, e, hs, hc, hl, hx⟩
    · left
      rw [e]
      refine ⟨rfl, ?_⟩
      rintro t ⟨u, hu, rfl⟩ hb
      cases hu with
      | cons hp _ =>
        rename_i s1 t1 _
        refine hn _ hp ?_
        simp only [List.length_append, show (asc "]").length = 1 from rfl] at hb
        omega
    · rw [e, bind_ok]
      have ec := cstring_ok hc
      rw [List.drop_zero] at ec
      rw [ec, bind_ok, if_neg (by omega)]
      -- the comma
      have hcomma : ∃ b1, (if first then (.ok b : Res Buf) else put b off 44#8) = .ok b1 ∧ Same b b1 off (commaLen first) ∧ Holds b1 off (if first then [] else asc ",") := by
        cases first with
        | true => exact ⟨b, rfl, Same.refl _ _ _, fun i c hc => by simp at hc⟩
        | false =>
          obtain ⟨b1, e1, s1, h1⟩ := put_ok (b := b) (i := off) 44#8 (by omega)
          exact ⟨b1, e1, s1, h1⟩
      have hcl2 : (if first then [] else asc ",").length = commaLen first := by cases first <;> rfl
      have hcc : Clean (if first then [] else asc ",") := by
        cases first
        · exact bracket_clean.2.2.2.2
        · intro c hc; cases hc
      obtain ⟨b1, e1, s1, g1⟩ := hcomma
      generalize commaLen first = k at *
      generalize hct : (if first then [] else asc ",") = ct at *
      rw [e1, bind_ok]
      obtain ⟨b2, e2, s2, g2⟩ := strncpy_ok (s := s) (b := b1) (off := off + k) (n := m - k) (by rw [s1.1]; omega) (by omega)
      rw [e2, bind_ok]
      have s12 : Same b b2 off m := (s1.mono (by omega) (by omega)).trans (s2.mono (by omega) (by omega))
      have g12 : Holds b2 off (ct ++ s) := (g1.same s2 (by omega)).append (by rw [hcl2]; exact g2)
      have c12 : Clean (ct ++ s) := hcc.append hc.2
      have l12 : (ct ++ s).length = k + s.length := by rw [List.length_append, hcl2]
      have main : ∀ (res : Res Buf) (w : Str → Prop), Outcome res b2 (off + k + s.length) (m - k - s.length) 1 1 w →
          (∀ t u, Fields fmtF F (v :: vs) first u → t = u ++ asc "]" → t.length + 1 ≤ m → ∃ t', w t' ∧ t = ct ++ s ++ t') →
          Outcome res b off m 1 1 (fun t => ∃ u, Fields fmtF F (v :: vs) first u ∧ t = u ++ asc "]") := by
        intro res w ho hw
        rcases ho with ⟨er, hn⟩ | ⟨b3, s3, er, ss3, c3, l3, x3⟩
        · left
          refine ⟨er, ?_⟩
          rintro t ⟨u, hu, et⟩ hb
          obtain ⟨t', hw', rfl⟩ := hw t u hu et hb
          refine hn t' hw' ?_
          rw [List.length_append, l12] at hb
          omega
        · right
          have off' : off + k + s.length = off + (ct ++ s).length := by omega
          rw [off'] at c3 ss3
          refine ⟨b3, ct ++ s ++ s3, er, s12.trans (ss3.mono (by omega) (by omega)), CString.append (g12.same ss3 (by omega)) c12 c3, by rw [List.length_append, l12]; omega, ?_⟩
          rintro t ⟨u, hu, et⟩ hb
          obtain ⟨t', hw', rfl⟩ := hw t u hu et hb
          rw [List.length_append, l12] at hb
          rw [x3 t' hw' (by omega)]
      have split : ∀ t u, Fields fmtF F (v :: vs) first u → t = u ++ asc "]" → t.length + 1 ≤ m → ∃ t', Fields fmtF F vs false t' ∧ t = ct ++ s ++ (t' ++ asc "]") := by
        intro t u hu et hb
        cases hu with
        | @cons _ _ _ s' t' hp hr =>
          rw [hct] at et
          have hlen : (asc "]").length = 1 := rfl
          rw [et] at hb
          simp only [List.length_append, hlen, hcl2] at hb
          have := hx s' hp (by omega)
          subst this
          exact ⟨t', hr, by rw [et]; simp⟩
      by_cases hlast : m - k - s.length < 2
      · rw [if_pos hlast]
        obtain ⟨b3, e3, s3, h3⟩ := close_ok (b := b2) (off := off + k + s.length) (n := m - k - s.length) (by omega) (by rw [s12.1]; omega)
        rw [if_neg (by omega)] at h3
        refine main _ (fun _ => False) (Or.inr ⟨b3, [], e3, s3, h3, by simp; omega, fun _ h => absurd h id⟩) ?_
        intro t u hu et hb
        obtain ⟨t', _, rfl⟩ := split t u hu et hb
        rw [List.length_append, l12, List.length_append, show (asc "]").length = 1 from rfl] at hb
        omega
      · rw [if_neg hlast]
        refine main _ _ (ihv (fun x hx => hv x (by simp [hx])) (m - k - s.length) b2 (off + k + s.length) sb false (by omega) (by omega) (by rw [hs.1]; omega) (by rw [s12.1]; omega)) ?_
        intro t u hu et hb
        obtain ⟨t', h', e'⟩ := split t u hu et hb
        exact ⟨_, ⟨t', h', rfl⟩, e'⟩

theorem record_ok (hF : ∀ r, ∀ v ∈ F r, Good fmtF v) (n : Nat) (ih : ∀ m, m < n → ValueOk fmtF F m) (b : Buf) (off : Nat) (r : ρ) (h2 : 2 ≤ n) (h4 : off + n ≤ b.length) :
    Outcome (snprintRecord fmtF F b off r n) b off n 1 1 (fun t => ∃ u, Fields fmtF F (F r) true u ∧ t = asc "[" ++ u ++ asc "]") := by
  rw [snprintRecord, dif_neg (by omega)]
  obtain ⟨b1, e1, s1, g1⟩ := put_ok (b := b) (i := off) 91#8 (by omega)
  rw [e1, bind_ok]
  have main : ∀ (res : Res Buf), Outcome res b1 (off + 1) (n - 1) 1 1 (fun t => ∃ u, Fields fmtF F (F r) true u ∧ t = u ++ asc "]") →
      Outcome res b off n 1 1 (fun t => ∃ u, Fields fmtF F (F r) true u ∧ t = asc "[" ++ u ++ asc "]") := by
    intro res ho
    have l1 : (asc "[").length = 1 := rfl
    rcases ho with ⟨er, hn⟩ | ⟨b3, s3, er, ss3, c3, l3, x3⟩
    · left
      refine ⟨er, ?_⟩
      rintro t ⟨u, hu, rfl⟩ hb
      refine hn _ ⟨u, hu, rfl⟩ ?_
      simp only [List.length_append, l1] at hb ⊢
      omega
    · right
      refine ⟨b3, asc "[" ++ s3, er, (s1.mono (by omega) (by omega)).trans (ss3.mono (by omega) (by omega)), ?_, by rw [List.length_append, l1]; omega, ?_⟩
      · have g3 : Holds b3 off (asc "[") := Holds.same (s := asc "[") g1 ss3 (by rw [l1])
        exact CString.append g3 bracket_clean.2.2.1 (by rw [l1]; exact c3)
      · rintro t ⟨u, hu, rfl⟩ hb
        simp only [List.length_append, l1] at hb
        rw [x3 _ ⟨u, hu, rfl⟩ (by rw [List.length_append]; omega), List.append_assoc]
  apply main
  by_cases hn : n = 2
  · subst hn
    cases hv : F r with
    | nil =>
      rw [recordLoop]
      obtain ⟨b3, e3, s3, h3⟩ := close_ok (b := b1) (off := off + 1) (n := 2 - 1) (by omega) (by rw [s1.1]; omega)
      rw [if_neg (by omega)] at h3
      refine Or.inr ⟨b3, [], e3, s3, h3, by simp, ?_⟩
      rintro t ⟨u, _, rfl⟩ hb
      simp [List.length_append, show (asc "]").length = 1 from rfl] at hb
    | cons v vs =>
      left
      refine ⟨?_, ?_⟩
      · have hg := hF r v (by rw [hv]; simp)
        rw [recordLoop, snprintValue.eq_def, dif_neg (by omega)]
        cases v with
        | leaf l =>
          obtain ⟨t, ht, _⟩ := hg
          dsimp only
          rw [ht]
          rfl
        | record hex r' => rfl
      · rintro t ⟨u, _, rfl⟩ hb
        simp [List.length_append, show (asc "]").length = 1 from rfl] at hb
  · exact loop_ok hF (n - 1) (fun m hm => ih m (by omega)) (F r) (hF r) (n - 1) b1 (off + 1) _ true (by omega) (by omega) (by simp) (by rw [s1.1]; omega)

theorem value_ok (hF : ∀ r, ∀ v ∈ F r, Good fmtF v) (n : Nat) : ValueOk fmtF F n := by
  induction n using Nat.strongRecOn with
  | ind n ih =>
    intro b off v hg h2 h4
    rw [snprintValue.eq_def, dif_neg (by omega)]
    cases v with
    | leaf l =>
      obtain ⟨t, ht, hc⟩ := hg
      dsimp only
      rw [ht]
      obtain ⟨b1, e1, s1, g1⟩ := snprintf_ok (t := t) (b := b) (off := off) (n := n - 1) (by omega) (by omega) hc
      refine Or.inr ⟨b1, _, e1, s1.mono (by omega) (by omega), g1, by rw [List.length_take]; omega, ?_⟩
      intro u hu hb
      cases hu with
      | leaf h =>
        rw [ht] at h
        cases h
        exact List.take_of_length_le (by omega)
    | record hex r =>
      have hc : Clean (asc "<rec " ++ hex ++ asc ">") := (bracket_clean.1.append hg).append bracket_clean.2.1
      obtain ⟨b1, e1, s1, g1⟩ := snprintf_ok (t := asc "<rec " ++ hex ++ asc ">") (b := b) (off := off) (n := n - 1) (by omega) (by omega) hc
      dsimp only
      rw [e1, bind_ok, cstring_ok g1, bind_ok]
      have inv : ∀ t, Prints fmtF F (.record hex r) t → ∃ u, Fields fmtF F (F r) true u ∧ t = asc "<rec " ++ hex ++ asc ">" ++ (asc "[" ++ u ++ asc "]") := by
        intro t ht
        cases ht with
        | record hu => exact ⟨_, hu, by simp⟩
      have hlb : (asc "[").length = 1 ∧ (asc "]").length = 1 := ⟨rfl, rfl⟩
      generalize hs : asc "<rec " ++ hex ++ asc ">" = s0 at *
      have htake : ∀ u : Str, (s0 ++ (asc "[" ++ u ++ asc "]")).length + 2 ≤ n → s0.take (n - 1 - 1) = s0 := by
        intro u hb
        rw [List.length_append] at hb
        exact List.take_of_length_le (by omega)
      by_cases hgo : n - 1 - (s0.take (n - 1 - 1)).length > 1
      · rw [if_pos hgo]
        have hrec := record_ok hF (n - 1 - (s0.take (n - 1 - 1)).length) (fun m hm => ih m (by omega)) b1 (off + (s0.take (n - 1 - 1)).length) r (by omega) (by rw [s1.1]; omega)
        rcases hrec with ⟨er, hn⟩ | ⟨b3, s3, er, ss3, c3, l3, x3⟩
        · left
          refine ⟨er, ?_⟩
          intro t ht hb
          obtain ⟨u, hu, rfl⟩ := inv t ht
          refine hn _ ⟨u, hu, rfl⟩ ?_
          rw [htake u hb]
          rw [List.length_append] at hb
          omega
        · right
          refine ⟨b3, s0.take (n - 1 - 1) ++ s3, er, (s1.mono (by omega) (by omega)).trans (ss3.mono (by omega) (by omega)), CString.append (g1.1.left.same ss3 (by omega)) g1.2 c3,
            by rw [List.length_append]; omega, ?_⟩
          intro t ht hb
          obtain ⟨u, hu, rfl⟩ := inv t ht
          have e := htake u hb
          rw [e] at x3 ⊢
          rw [List.length_append] at hb
          rw [x3 _ ⟨u, hu, rfl⟩ (by omega)]
      · rw [if_neg hgo]
        right
        refine ⟨b1, _, rfl, s1.mono (by omega) (by omega), g1, by rw [List.length_take]; omega, ?_⟩
        intro t ht hb
        obtain ⟨u, hu, rfl⟩ := inv t ht
        have e := htake u hb
        rw [e] at hgo
        simp only [List.length_append] at hb
        omega

end WG.Print
