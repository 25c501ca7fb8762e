import Verif.Reason.Subsume

/-! # Without function terms nothing goes wrong in matching and subsumption -/
namespace WG.Reason

theorem eqTerm_flat {M : Mem} {x y : Term} (hx : x.isRec = false) (hy : y.isRec = false) : ∃ b, eqTerm M x y = .ok b := by
  cases x with
  | var n => exact ⟨_, by rw [eqTerm]⟩
  | con c =>
    cases y with
    | var n => exact ⟨_, by rw [eqTerm]; intros; simp_all⟩
    | con d => exact ⟨_, by rw [eqTerm]⟩
    | nul => simp [Term.isRec] at hy
    | app _ _ => simp [Term.isRec] at hy
  | nul => simp [Term.isRec] at hx
  | app _ _ => simp [Term.isRec] at hx

theorem eqArgs_flat {M : Mem} : ∀ (ts us : List Term), (∀ t : Term, t ∈ ts → t.isRec = false) → (∀ t : Term, t ∈ us → t.isRec = false) →
    ∃ b, eqArgs M ts us = .ok b
  | [], us, _, _ => ⟨true, by rw [eqArgs]; intros; simp_all⟩
  | _ :: _, [], _, _ => ⟨true, by rw [eqArgs]; intros; simp_all⟩
  | t :: ts, u :: us, h1, h2 => by
    obtain ⟨b, hb⟩ := eqTerm_flat (M := M) (h1 t (by simp)) (h2 u (by simp))
    obtain ⟨b', hb'⟩ := eqArgs_flat (M := M) ts us (fun t ht => h1 t (by simp [ht])) (fun t ht => h2 t (by simp [ht]))
    cases b with
    | true => exact ⟨b', by rw [eqArgs, hb, bind_ok, if_pos rfl]; exact hb'⟩
    | false => exact ⟨false, by rw [eqArgs, hb, bind_ok, if_neg (by simp)]⟩

theorem equalTerm_flat {M : Mem} {x y : Term} (hx : Flat x) (hy : Flat y) : ∃ b, equalTerm M x y = .ok b := by
  cases hx with
  | @app a ts h1 =>
    cases hy with
    | @app b us h2 =>
      rw [equalTerm]
      by_cases hs : (Term.app a ts).same (Term.app b us) = true
      · exact ⟨true, by rw [if_pos hs]⟩
      · rw [if_neg hs, if_neg (by simp [Term.isRec]), eqTerm]
        by_cases hab : a = b
        · exact ⟨true, by rw [if_pos hab]⟩
        · rw [if_neg hab]
          by_cases hl : ts.length ≠ us.length
          · exact ⟨false, by rw [if_pos hl]⟩
          · rw [if_neg hl]; exact eqArgs_flat ts us h1 h2

/-- Variables have got variables and constants only. -/
structure FInv (M : Mem) (s : St) : Prop extends MInv M s where
  flat : ∀ n t, s.bank n = some t → t.isRec = false

theorem finv_clear (M : Mem) : FInv M St.clear := ⟨minv_clear M, fun _ _ h => by cases h⟩

theorem matchTerm_flat {M : Mem} {x y : Term} {s : St} (hx : Fine M x) (hy : Fine M y) (I : FInv M s) (h1 : x.isRec = false)
    (h2 : y.isRec = false) : ∃ b s', matchTerm M x y s = .ok (b, s') ∧ FInv M s' := by
  cases hx with
  | app _ _ => simp [Term.isRec] at h1
  | con c =>
    obtain ⟨b, hb⟩ := eqTerm_flat (M := M) (x := .con c) rfl h2
    cases b with
    | true => exact ⟨true, s, by rw [matchTerm, hb, bind_ok, if_pos rfl], I⟩
    | false => exact ⟨false, s, by rw [matchTerm, hb, bind_ok, if_neg (by simp), if_neg (by simp [h2])], I⟩
  | @var n hn =>
    simp only [matchTerm, St.get, if_pos hn, bind_ok]
    cases hb : s.bank n with
    | none =>
      refine ⟨true, s.upd n y, by simp only [mset_ok I.toMInv hn hb, bind_ok], mupd_inv I.toMInv hn hb hy, fun m t h => ?_⟩
      by_cases hm : m = n
      · subst hm; rw [upd_same] at h; injection h with h; subst h; exact h2
      · rw [upd_other hm] at h; exact I.flat m t h
    | some v =>
      obtain ⟨b, hb'⟩ := eqTerm_flat (M := M) (I.flat n v hb) h2
      exact ⟨b, s, by simp only [hb', bind_ok], I⟩

theorem matchArgs_flat {M : Mem} : ∀ (ts us : List Term) (s : St), (∀ t : Term, t ∈ ts → Fine M t) → (∀ t : Term, t ∈ us → Fine M t) →
    (∀ t : Term, t ∈ ts → t.isRec = false) → (∀ t : Term, t ∈ us → t.isRec = false) → FInv M s →
    ∃ b s', matchArgs M ts us s = .ok (b, s') ∧ FInv M s'
  | [], us, s, _, _, _, _, I => ⟨true, s, by rw [matchArgs]; intros; simp_all, I⟩
  | _ :: _, [], s, _, _, _, _, I => ⟨true, s, by rw [matchArgs]; intros; simp_all, I⟩
  | t :: ts, u :: us, s, f1, f2, h1, h2, I => by
    obtain ⟨b, s1, hb, I1⟩ := matchTerm_flat (f1 t (by simp)) (f2 u (by simp)) I (h1 t (by simp)) (h2 u (by simp))
    cases b with
    | false => exact ⟨false, s1, by rw [matchArgs, hb, bind_ok, if_neg (by simp)], I1⟩
    | true =>
      obtain ⟨b', s2, hb', I2⟩ := matchArgs_flat ts us s1 (fun t ht => f1 t (by simp [ht])) (fun t ht => f2 t (by simp [ht]))
        (fun t ht => h1 t (by simp [ht])) (fun t ht => h2 t (by simp [ht])) I1
      exact ⟨b', s2, by rw [matchArgs, hb, bind_ok, if_pos rfl]; exact hb', I2⟩

theorem matchAtom_flat {M : Mem} {x y : Term} {s : St} (hx : Fine M x) (hy : Fine M y) (h1 : Flat x) (h2 : Flat y) (I : FInv M s) :
    ∃ b s', matchTerm M x y s = .ok (b, s') ∧ FInv M s' := by
  cases h1 with
  | @app a ts h1 =>
    cases h2 with
    | @app b us h2 =>
      cases hx with
      | app _ f1 =>
        cases hy with
        | app _ f2 =>
          rw [matchTerm, if_pos (by simp [Term.isRec]), Term.parts, bind_ok]
          by_cases hl : ts.length ≠ us.length
          · exact ⟨false, s, by rw [if_pos hl], I⟩
          · rw [if_neg hl]; exact matchArgs_flat ts us s f1 f2 h1 h2 I

theorem subsLoop_flat {M : Mem} {k : List Bool → St → Res (Bool × St)} {l : Lit} {used : List Bool}
    (hk : ∀ used s, FInv M s → ∃ b s', k used s = .ok (b, s') ∧ Grows M s s')
    (hl : Fine M l.atom) (hf : Flat l.atom) :
    ∀ (suf : List Lit) (i : Nat) (s : St), (∀ l : Lit, l ∈ suf → Fine M l.atom ∧ Flat l.atom) → FInv M s →
    ∃ b s', subsLoop M k l used i suf s = .ok (b, s') ∧ Grows M s s'
  | [], i, s, _, I => ⟨false, s, rfl, .refl I.toMInv⟩
  | l2 :: suf, i, s, hs, I => by
    have next := subsLoop_flat (used := used) hk hl hf suf (i + 1) s (fun l hl => hs l (by simp [hl])) I
    rw [subsLoop]
    by_cases hc : (used.getD i true || l.neg != l2.neg) = true
    · rw [if_pos hc]; exact next
    · rw [if_neg hc]
      have f2 := hs l2 (by simp)
      obtain ⟨b1, s1, hr, I1⟩ := matchAtom_flat hl f2.1 hf f2.2 I
      have P := matchTerm_says l.atom l2.atom s b1 s1 hl f2.1 I.toMInv hr
      rw [hr, bind_ok]
      cases b1 with
      | false =>
        rw [if_neg (by simp)]
        simp only [grows_undo I.toMInv P.grows]
        exact next
      | true =>
        rw [if_pos rfl]
        obtain ⟨b2, s2, hr2, G2⟩ := hk (used.set i true) s1 I1
        have G := P.grows.trans G2
        simp only [hr2, bind_ok]
        cases b2 with
        | true => exact ⟨true, s2, by rw [if_pos rfl], G⟩
        | false =>
          simp only [grows_undo I.toMInv G]
          by_cases hst : s.stack.length = s1.stack.length
          · exact ⟨false, s, by rw [if_neg (by simp), if_pos hst], .refl I.toMInv⟩
          · rw [if_neg (by simp), if_neg hst]; exact next

theorem subsAux_flat {M : Mem} {cl : List Lit} (hcl : ∀ l : Lit, l ∈ cl → Fine M l.atom ∧ Flat l.atom) :
    ∀ (ls : List Lit) (used : List Bool) (s : St), (∀ l : Lit, l ∈ ls → Fine M l.atom ∧ Flat l.atom) → FInv M s →
    ∃ b s', subsAux M cl ls used s = .ok (b, s') ∧ Grows M s s'
  | [], _, s, _, I => ⟨false, s, rfl, .refl I.toMInv⟩
  | l :: ls, used, s, hls, I => by
    rw [subsAux]
    refine subsLoop_flat ?_ (hls l (by simp)).1 (hls l (by simp)).2 cl 0 s hcl I
    intro used s I
    cases ls with
    | nil => exact ⟨true, s, rfl, .refl I.toMInv⟩
    | cons l' ls' => exact subsAux_flat hcl (l' :: ls') used s (fun l hl => hls l (by simp [hl])) I

theorem factLoop_flat {M : Mem} {a : Term} (ha : Flat a) : ∀ (ls : List Lit), (∀ l : Lit, l ∈ ls → Flat l.atom) → ∃ b, factLoop M a ls = .ok b
  | [], _ => ⟨false, rfl⟩
  | l :: ls, hls => by
    obtain ⟨b, hb⟩ := factLoop_flat (M := M) ha ls (fun l hl => hls l (by simp [hl]))
    rw [factLoop]
    by_cases hn : l.neg = true
    · rw [if_pos hn]; exact ⟨b, hb⟩
    · rw [if_neg hn]
      obtain ⟨b', hb'⟩ := equalTerm_flat (M := M) ha (hls l (by simp))
      rw [hb', bind_ok]
      cases b' with
      | true => exact ⟨true, rfl⟩
      | false => exact ⟨b, by rw [if_neg (by simp)]; exact hb⟩

theorem unitLoop_flat {M : Mem} {l1 : Lit} (ha : Fine M l1.atom) (hf : Flat l1.atom) : ∀ (ls : List Lit),
    (∀ l : Lit, l ∈ ls → Fine M l.atom ∧ Flat l.atom) → ∃ b s', unitLoop M l1 ls St.clear = .ok (b, s')
  | [], _ => ⟨false, _, rfl⟩
  | l :: ls, hls => by
    obtain ⟨b, s', hb⟩ := unitLoop_flat ha hf ls (fun l hl => hls l (by simp [hl]))
    rw [unitLoop]
    by_cases hn : (l1.neg != l.neg) = true
    · rw [if_pos hn]; exact ⟨b, s', hb⟩
    · rw [if_neg hn]
      obtain ⟨b', s1, hr, _⟩ := matchAtom_flat ha (hls l (by simp)).1 hf (hls l (by simp)).2 (finv_clear M)
      have := (match_clear ha (hls l (by simp)).1 hr).1
      rw [hr, bind_ok]
      cases b' with
      | true => exact ⟨true, _, rfl⟩
      | false =>
        rw [if_neg (by simp)]
        simp only [this]
        exact ⟨b, s', hb⟩

theorem subsume_flat {M : Mem} {c1 c2 : Clause} (h1 : c1.Fine M) (h2 : c2.Fine M) (f1 : c1.Flat) (f2 : c2.Flat) (hne : c1.lits ≠ []) :
    ∃ b s', subsume M c1 c2 St.clear = .ok (b, s') := by
  match c1, c2, h1, h2, f1, f2, hne with
  | .fact a, .fact b', h1, h2, f1, f2, _ =>
    obtain ⟨b, hb⟩ := equalTerm_flat (M := M) (f1 ⟨false, a⟩ (by simp [Clause.lits])) (f2 ⟨false, b'⟩ (by simp [Clause.lits]))
    exact ⟨b, _, by rw [subsume]; simp only [hb, bind_ok]; rfl⟩
  | .fact a, .rule ls, h1, h2, f1, f2, _ =>
    obtain ⟨b, hb⟩ := factLoop_flat (M := M) (f1 ⟨false, a⟩ (by simp [Clause.lits])) ls f2
    exact ⟨b, _, by rw [subsume]; simp only [hb, bind_ok]; rfl⟩
  | .rule [], c2, _, _, _, _, hne => exact absurd rfl hne
  | .rule [l], .fact b', h1, h2, f1, f2, _ =>
    rw [subsume]
    by_cases hn : l.neg = true
    · exact ⟨false, _, by rw [if_pos hn]⟩
    · obtain ⟨b, s1, hr, _⟩ := matchAtom_flat (h1 l (by simp [Clause.lits])) (h2 ⟨false, b'⟩ (by simp [Clause.lits]))
        (f1 l (by simp [Clause.lits])) (f2 ⟨false, b'⟩ (by simp [Clause.lits])) (finv_clear M)
      exact ⟨b, s1.clearStack, by rw [if_neg hn]; simp only [hr, bind_ok]⟩
  | .rule (l1 :: l2 :: ls), .fact b', _, _, _, _, _ =>
    refine ⟨false, St.clear, ?_⟩
    rw [subsume]
    all_goals (intros; simp_all)
  | .rule [l], .rule ls, h1, h2, f1, f2, _ =>
    rw [subsume]
    exact unitLoop_flat (h1 l (by simp [Clause.lits])) (f1 l (by simp [Clause.lits])) ls fun l hl => ⟨h2 l hl, f2 l hl⟩
  | .rule (l1 :: l2 :: ks), .rule ls, h1, h2, f1, f2, _ =>
    rw [subsume]
    · by_cases hl : (l1 :: l2 :: ks).length > ls.length
      · exact ⟨false, _, by rw [if_pos hl]⟩
      · obtain ⟨b, s1, hr, _⟩ := subsAux_flat (M := M) (cl := ls) (fun l hl => ⟨h2 l hl, f2 l hl⟩) (l1 :: l2 :: ks)
          (List.replicate ls.length false) St.clear (fun l hl => ⟨h1 l hl, f1 l hl⟩) (finv_clear M)
        exact ⟨b, s1.clearStack, by rw [if_neg hl]; simp only [hr, bind_ok]⟩
    all_goals (intros; simp_all)

end WG.Reason
