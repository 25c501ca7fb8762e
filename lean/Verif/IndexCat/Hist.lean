import Verif.IndexCat.Step
/-!
# Histories of the catalogue
-/
namespace WG.IndexCat
variable {κ : Type} {V : Vt κ} {P : κ → Prop}

theorem id_inj : ∀ {L : List (Ent κ)}, (L.map Ent.id).Nodup → ∀ {a b : Ent κ}, a ∈ L → b ∈ L → a.id = b.id → a = b
  | [], _, _, _, ha, _, _ => by cases ha
  | x :: L, h, a, b, ha, hb, he => by
    rw [List.map_cons, List.nodup_cons] at h
    rcases List.mem_cons.mp ha with ha' | ha'
    · rcases List.mem_cons.mp hb with hb' | hb'
      · rw [ha', hb']
      · exact absurd (by rw [← ha', he]; exact List.mem_map_of_mem hb') h.1
    · rcases List.mem_cons.mp hb with hb' | hb'
      · exact absurd (by rw [← hb', ← he]; exact List.mem_map_of_mem ha') h.1
      · exact id_inj h.2 ha' hb' he

theorem erase_map : ∀ {L : List (Ent κ)}, (L.map Ent.id).Nodup → ∀ id, (L.map Ent.id).erase id = (L.filter fun e => decide (e.id ≠ id)).map Ent.id
  | [], _, _ => rfl
  | e :: L, h, id => by
    rw [List.map_cons, List.nodup_cons] at h
    rw [List.map_cons, List.erase_cons, List.filter_cons]
    by_cases he : e.id = id
    · subst he
      simp only [beq_self_eq_true, if_true, ne_eq, not_true_eq_false, decide_false, Bool.false_eq_true, if_false]
      rw [List.filter_eq_self.mpr]
      intro a ha
      rw [decide_eq_true_eq]
      exact fun h0 => h.1 (by rw [← h0]; exact List.mem_map_of_mem ha)
    · have hb : (e.id == id) = false := by simpa using he
      rw [hb, decide_eq_true he]
      simp only [Bool.false_eq_true, if_false, if_true, List.map_cons]
      rw [erase_map h.2 id]

theorem count_filter (p : Ent κ → Bool) : ∀ {L : List (Ent κ)}, (L.map Ent.id).Nodup → ∀ e ∈ L,
    (L.filter fun x => decide (x.id ≠ e.id)).countP p + (if p e = true then 1 else 0) = L.countP p
  | [], _, _, h => by cases h
  | a :: L, hn, e, he => by
    rw [List.map_cons, List.nodup_cons] at hn
    rw [List.filter_cons]
    rcases List.mem_cons.mp he with rfl | he
    · simp only [ne_eq, not_true_eq_false, decide_false, Bool.false_eq_true, if_false, List.countP_cons]
      rw [List.filter_eq_self.mpr]
      intro b hb
      rw [decide_eq_true_eq]
      exact fun h0 => hn.1 (by rw [← h0]; exact List.mem_map_of_mem hb)
    · have hne : a.id ≠ e.id := fun h0 => hn.1 (by rw [h0]; exact List.mem_map_of_mem he)
      rw [decide_eq_true hne, if_pos rfl, List.countP_cons, List.countP_cons, ← count_filter p hn.2 e he]
      omega

/-- Dropping an index. -/
theorem drop_inv {c : Cat κ} {L : List (Ent κ)} (h : CInv V P c L) (hu : Used c L) {e : Ent κ} (he : e ∈ L) :
    CInv V P (release (unlink V c e.id) (c.hdr e.id).tmpl) (L.filter fun x => decide (x.id ≠ e.id)) ∧
    Used (release (unlink V c e.id) (c.hdr e.id).tmpl) (L.filter fun x => decide (x.id ≠ e.id)) := by
  set c' := release (unlink V c e.id) (c.hdr e.id).tmpl with hc'
  set L' := L.filter fun x => decide (x.id ≠ e.id) with hL'
  have hm' : ∀ x, x ∈ L' ↔ x ∈ L ∧ x.id ≠ e.id := fun x => by rw [hL', List.mem_filter, decide_eq_true_eq]
  have hh : c'.hdr = c.hdr := by rw [hc']; unfold release unlink removeTemplate; dsimp only; split_ifs <;> rfl
  have hlist : c'.list = c.list.erase e.id := by rw [hc']; unfold release unlink removeTemplate; dsimp only; split_ifs <;> rfl
  have htab : ∀ k, c'.table k = if k ∈ (c.hdr e.id).cols then (c.table k).erase e.id else c.table k := fun k => by
    rw [show c'.table = (unlink V c e.id).table from by rw [hc']; unfold release removeTemplate; dsimp only; split_ifs <;> rfl]; rfl
  have htt : ∀ k, c'.ttable k = if (c.hdr e.id).tmpl ≠ 0 ∧ fixedAt V (c.tm (c.hdr e.id).tmpl).fields k = true then (c.ttable k).erase e.id else c.ttable k :=
    fun k => by rw [show c'.ttable = (unlink V c e.id).ttable from by rw [hc']; unfold release removeTemplate; dsimp only; split_ifs <;> rfl]; rfl
  have hcnt : c'.count = c.count - 1 := by rw [hc']; unfold release unlink removeTemplate; dsimp only; split_ifs <;> rfl
  have htm : ∀ k, c'.tm k = if (c.hdr e.id).tmpl ≠ 0 ∧ k = (c.hdr e.id).tmpl then { c.tm k with refs := (c.tm k).refs - 1 } else c.tm k := fun k => by
    rw [show c'.tm = fun k => if (c.hdr e.id).tmpl ≠ 0 ∧ k = (c.hdr e.id).tmpl then { c.tm k with refs := (c.tm k).refs - 1 } else c.tm k from by
      rw [hc']; unfold release removeTemplate; dsimp only; by_cases h0 : (c.hdr e.id).tmpl ≠ 0 ∧ (if (c.hdr e.id).tmpl ≠ 0 ∧ (c.hdr e.id).tmpl = (c.hdr e.id).tmpl then { (unlink V c e.id).tm (c.hdr e.id).tmpl with refs := ((unlink V c e.id).tm (c.hdr e.id).tmpl).refs - 1 } else (unlink V c e.id).tm (c.hdr e.id).tmpl).refs = 0
      · rw [if_pos h0]; rfl
      · rw [if_neg h0]; rfl]
  have htf : ∀ k, (c'.tm k).fields = (c.tm k).fields := fun k => by rw [htm]; split_ifs <;> rfl
  have htx : ∀ k, (c'.tm k).fixed = (c.tm k).fixed := fun k => by rw [htm]; split_ifs <;> rfl
  have htl : c'.tlist = if (c.hdr e.id).tmpl ≠ 0 ∧ (c'.tm (c.hdr e.id).tmpl).refs = 0 then c.tlist.erase (c.hdr e.id).tmpl else c.tlist := by
    rw [htm]
    rw [hc']
    unfold release unlink removeTemplate
    dsimp only
    split_ifs <;> rfl
  have hnf : ∀ x, nfix c' x = nfix c x := fun x => nfix_congr (by rw [hh]) fun _ => htx _
  have hcols : ∀ k, k ∈ (c.hdr e.id).cols ↔ k ∈ e.cols := fun k => by
    rw [(h.hdr e he).cols]; exact sort_mem (h.legal e he).2.2.2.1 k
  have hsub : L'.Sublist L := List.filter_sublist
  -- reference counts
  have hrefs : ∀ t ∈ c.tlist, (c'.tm t).refs = users c' L' t := fun t ht => by
    have h1 := h.refs t ht
    have h2 := count_filter (fun x => decide ((c.hdr x.id).tmpl = t)) h.nodup e he
    rw [← hL'] at h2
    have h3 : users c' L' t = L'.countP fun x => decide ((c.hdr x.id).tmpl = t) := by unfold users; rw [hh]
    rw [h3, htm]
    unfold users at h1
    by_cases h4 : (c.hdr e.id).tmpl = t
    · have hz : (c.hdr e.id).tmpl ≠ 0 := fun h0 => h.lnz (by rw [← h0, h4]; exact ht)
      rw [if_pos ⟨hz, h4.symm⟩]
      dsimp only
      rw [if_pos (by simpa using h4)] at h2
      rw [h1]
      omega
    · rw [if_neg (fun h => h4 h.2.symm)]
      rw [if_neg (by simpa using h4)] at h2
      rw [h1]
      omega
  have hin : ∀ t, t ∈ c'.tlist ↔ t ∈ c.tlist ∧ ∃ x ∈ L', (c.hdr x.id).tmpl = t := fun t => by
    have hpos : ∀ t ∈ c.tlist, (c'.tm t).refs ≠ 0 ↔ ∃ x ∈ L', (c.hdr x.id).tmpl = t := fun t ht => by
      rw [hrefs t ht]
      unfold users
      rw [hh]
      have := List.countP_pos_iff (p := fun x : Ent κ => decide ((c.hdr x.id).tmpl = t)) (l := L')
      simp only [decide_eq_true_eq] at this
      rw [← this]
      omega
    rw [htl]
    constructor
    · intro h1
      by_cases hcond : (c.hdr e.id).tmpl ≠ 0 ∧ (c'.tm (c.hdr e.id).tmpl).refs = 0
      · rw [if_pos hcond, h.lnodup.mem_erase_iff] at h1
        refine ⟨h1.2, (hpos t h1.2).mp ?_⟩
        obtain ⟨x, hx, hxt⟩ := hu t h1.2
        refine (hpos t h1.2).mpr ⟨x, (hm' x).mpr ⟨hx, fun h0 => h1.1 ?_⟩, hxt⟩
        rw [← hxt, h0]
      · rw [if_neg hcond] at h1
        refine ⟨h1, ?_⟩
        by_cases h4 : (c.hdr e.id).tmpl = t
        · refine (hpos t h1).mp fun h0 => hcond ⟨fun hz => h.lnz (by rw [← hz, h4]; exact h1), by rw [h4]; exact h0⟩
        · obtain ⟨x, hx, hxt⟩ := hu t h1
          exact ⟨x, (hm' x).mpr ⟨hx, fun h0 => h4 (by rw [← h0]; exact hxt)⟩, hxt⟩
    · rintro ⟨h1, h2⟩
      by_cases hcond : (c.hdr e.id).tmpl ≠ 0 ∧ (c'.tm (c.hdr e.id).tmpl).refs = 0
      · rw [if_pos hcond, h.lnodup.mem_erase_iff]
        refine ⟨fun h0 => ?_, h1⟩
        rw [← h0] at hcond
        exact (hpos t h1).mpr h2 hcond.2
      · rw [if_neg hcond]; exact h1
  refine ⟨?_, fun t ht => ?_⟩
  · exact {
      list := by rw [hlist, h.list]; exact erase_map h.nodup e.id
      nodup := h.nodup.sublist (hsub.map _)
      nz := fun x hx => h.nz x ((hm' x).mp hx).1
      hdr := fun x hx => by
        obtain ⟨h1, h2⟩ := (hm' x).mp hx
        have g := h.hdr x h1
        refine ⟨by rw [hh]; exact g.type, by rw [hh]; exact g.cols, fun h0 => by rw [hh]; exact g.tnone h0, fun l h0 => ?_⟩
        obtain ⟨g1, g2⟩ := g.tsome l h0
        rw [hh, htf]
        exact ⟨(hin _).mpr ⟨g1, x, hx, rfl⟩, g2⟩
      legal := fun x hx => h.legal x ((hm' x).mp hx).1
      vals := fun x hx => h.vals x ((hm' x).mp hx).1
      types := fun x hx => h.types x ((hm' x).mp hx).1
      uniq := h.uniq.sublist hsub
      table := fun k x => by
        rw [htab]
        by_cases hk : k ∈ (c.hdr e.id).cols
        · rw [if_pos hk, (h.tnodup k).mem_erase_iff, h.table]
          constructor
          · rintro ⟨h1, y, hy, rfl, hyk⟩
            exact ⟨y, (hm' y).mpr ⟨hy, h1⟩, rfl, hyk⟩
          · rintro ⟨y, hy, rfl, hyk⟩
            obtain ⟨h1, h2⟩ := (hm' y).mp hy
            exact ⟨h2, y, h1, rfl, hyk⟩
        · rw [if_neg hk, h.table]
          constructor
          · rintro ⟨y, hy, rfl, hyk⟩
            refine ⟨y, (hm' y).mpr ⟨hy, fun h0 => hk ((hcols k).mpr ?_)⟩, rfl, hyk⟩
            rw [← id_inj h.nodup hy he h0]; exact hyk
          · rintro ⟨y, hy, rfl, hyk⟩
            exact ⟨y, ((hm' y).mp hy).1, rfl, hyk⟩
      tnodup := fun k => by
        rw [htab]
        split_ifs
        · exact (h.tnodup k).erase _
        · exact h.tnodup k
      tsorted := fun k => by
        have : (c.table k).Pairwise fun x y => nfix c' y ≤ nfix c' x := (h.tsorted k).imp fun {x y} hxy => by rw [hnf, hnf]; exact hxy
        rw [htab]
        split_ifs
        · exact this.sublist List.erase_sublist
        · exact this
      ttable := fun k x => by
        have hfx : ((c.hdr e.id).tmpl ≠ 0 ∧ fixedAt V (c.tm (c.hdr e.id).tmpl).fields k = true) ↔ ∃ l, e.tmpl = some l ∧ fix V l k ≠ none := by
          rw [fixedAt_iff]
          cases hl : e.tmpl with
          | none =>
            rw [(h.hdr e he).tnone hl]
            exact ⟨fun h => absurd rfl h.1, fun ⟨l, h, _⟩ => by cases h⟩
          | some l =>
            obtain ⟨g1, g2⟩ := (h.hdr e he).tsome l hl
            have hz : (c.hdr e.id).tmpl ≠ 0 := fun h0 => h.lnz (by rw [← h0]; exact g1)
            constructor
            · rintro ⟨_, h1⟩
              refine ⟨l, rfl, fun h2 => ?_⟩
              rcases g2 k with ⟨h3, _⟩ | ⟨a, b, _, h3, _⟩
              · exact h1 h3
              · rw [h2] at h3; cases h3
            · rintro ⟨l', h1, h2⟩
              cases h1
              refine ⟨hz, fun h1 => ?_⟩
              rcases g2 k with ⟨_, h3⟩ | ⟨a, b, h3, _, _⟩
              · exact h2 h3
              · rw [h1] at h3; cases h3
        rw [htt]
        by_cases hk : (c.hdr e.id).tmpl ≠ 0 ∧ fixedAt V (c.tm (c.hdr e.id).tmpl).fields k = true
        · rw [if_pos hk, (h.ttnodup k).mem_erase_iff, h.ttable]
          constructor
          · rintro ⟨h1, y, hy, rfl, hyk⟩
            exact ⟨y, (hm' y).mpr ⟨hy, h1⟩, rfl, hyk⟩
          · rintro ⟨y, hy, rfl, hyk⟩
            obtain ⟨h1, h2⟩ := (hm' y).mp hy
            exact ⟨h2, y, h1, rfl, hyk⟩
        · rw [if_neg hk, h.ttable]
          constructor
          · rintro ⟨y, hy, rfl, hyk⟩
            refine ⟨y, (hm' y).mpr ⟨hy, fun h0 => hk (hfx.mpr ?_)⟩, rfl, hyk⟩
            rw [← id_inj h.nodup hy he h0]; exact hyk
          · rintro ⟨y, hy, rfl, hyk⟩
            exact ⟨y, ((hm' y).mp hy).1, rfl, hyk⟩
      ttnodup := fun k => by
        rw [htt]
        split_ifs
        · exact (h.ttnodup k).erase _
        · exact h.ttnodup k
      lnodup := by
        rw [htl]
        split_ifs
        · exact h.lnodup.erase _
        · exact h.lnodup
      lnz := fun h0 => h.lnz ((hin 0).mp h0).1
      lsorted := by
        have : TSorted c'.tm c.tlist := h.lsorted.imp fun {x y} hxy => by rw [htx, htx]; exact hxy
        rw [htl]
        split_ifs
        · exact this.sublist List.erase_sublist
        · exact this
      tms := fun t ht => by
        have g := h.tms t ((hin t).mp ht).1
        exact ⟨by rw [htx, htf]; exact g.fixed, by rw [htf]; exact g.ends, by rw [htf]; exact g.vals, by rw [htf]; exact g.recs⟩
      refs := fun t ht => hrefs t ((hin t).mp ht).1
      apart := fun t ht t' ht' ha => by
        rw [htf, htf] at ha
        exact h.apart t ((hin t).mp ht).1 t' ((hin t').mp ht').1 ha
      count := by
        have := count_filter (fun _ => true) h.nodup e he
        simp only [List.countP_true, if_true] at this
        rw [hcnt, h.count]
        change _ = ((L'.length : Nat) : Int)
        rw [hL']
        omega }
  · obtain ⟨x, hx, h1⟩ := ((hin t).mp ht).2
    exact ⟨x, hx, by rw [hh]; exact h1⟩

/-! ## Creation -/

/-- What a call of wg_create_multi_index does. -/
theorem create_inv (hV : VOk V P) {c : Cat κ} {L : List (Ent κ)} (h : CInv V P c L) (hu : Used c L) (cols : List Int) (type : Int) (mo : Option (List κ)) (al : Al)
    (hty : type = TTREE ∨ type = HASH ∨ type = HASH_JSON) (hash : al.hash = true) (hid : al.hdr ≠ 0) (hfr : ∀ e ∈ L, e.id ≠ al.hdr) (ht0 : al.tmpl ≠ 0)
    (htl : al.tmpl ∉ c.tlist) (href : (c.tm al.tmpl).refs = 0) (hm : ∀ l, mo = some l → ∀ v ∈ l, P v) :
    ((Legal V cols type mo ∧ ¬∃ e ∈ L, e.Fits V cols type mo) ∧ (create V c cols type mo al).2 = 0 ∧
      CInv V P (create V c cols type mo al).1 (⟨al.hdr, type, cols, mo⟩ :: L) ∧ Used (create V c cols type mo al).1 (⟨al.hdr, type, cols, mo⟩ :: L)) ∨
    (¬(Legal V cols type mo ∧ ¬∃ e ∈ L, e.Fits V cols type mo) ∧ (create V c cols type mo al).2 = -1 ∧ (create V c cols type mo al).1 = c) := by
  unfold create
  by_cases h1 : cols.length < 1
  · rw [if_pos h1]
    refine Or.inr ⟨fun ⟨hl, _⟩ => hl.1 (List.eq_nil_of_length_eq_zero (by omega)), rfl, rfl⟩
  rw [if_neg h1]
  by_cases h2 : cols.length > maxFields
  · rw [if_pos h2]
    refine Or.inr ⟨fun ⟨hl, _⟩ => ?_, rfl, rfl⟩
    have := hl.2.1
    unfold maxFields at h2
    omega
  rw [if_neg h2]
  by_cases h3 : cols.length > 1 ∧ (type = TTREE ∨ type = TTREE_JSON)
  · rw [if_pos h3]
    refine Or.inr ⟨fun ⟨hl, _⟩ => ?_, rfl, rfl⟩
    have hT : type = TTREE := by
      rcases h3.2 with h | h
      · exact h
      · rcases hty with g | g | g <;> rw [h] at g <;> exact absurd g (by decide)
    have := hl.2.2.2.2.1 hT
    omega
  rw [if_neg h3]
  by_cases h4 : (sortColumns cols).length < cols.length
  · rw [if_pos h4]
    exact Or.inr ⟨fun ⟨hl, _⟩ => (sort_length cols).mp h4 ⟨hl.2.2.1, hl.2.2.2.1⟩, rfl, rfl⟩
  rw [if_neg h4]
  have hnr : cols.Nodup ∧ ∀ x ∈ cols, 0 ≤ x ∧ x ≤ 127 := by
    by_contra hc
    exact h4 ((sort_length cols).mpr hc)
  have hbase : ∀ m', (∀ l, m' = some l → l.length ≤ 128 ∧ (∃ v ∈ l, V.isVar v = false) ∧ (∀ v ∈ l, V.isRec v = false) ∧ ∀ i ∈ cols, fix V l i.toNat = none) →
      Legal V cols type m' := fun m' hm' => by
    refine ⟨fun h0 => h1 (by rw [h0]; simp), by unfold maxFields at h2; omega, hnr.1, hnr.2, fun hT => ?_, hm'⟩
    have : ¬cols.length > 1 := fun h0 => h3 ⟨h0, Or.inl hT⟩
    omega
  have hcond : type = TTREE ∨ (type = HASH ∨ type = HASH_JSON) ∧ al.hash = true := by
    rcases hty with h | h | h
    · exact Or.inl h
    · exact Or.inr ⟨Or.inl h, hash⟩
    · exact Or.inr ⟨Or.inr h, hash⟩
  cases mo with
  | none =>
    dsimp only
    have hl : Legal V cols type none := hbase none fun l h0 => by cases h0
    have hs := seen_ok hV h hl hm (Or.inl ⟨rfl, rfl⟩ : TFor V c none 0)
    unfold link
    dsimp only
    by_cases hseen : ∃ e ∈ L, e.Fits V cols type none
    · rw [if_pos (hs.mpr hseen)]
      exact Or.inr ⟨fun h0 => h0.2 hseen, rfl, rfl⟩
    · rw [if_neg (fun h0 => hseen (hs.mp h0)), if_pos hcond]
      refine Or.inl ⟨⟨hl, hseen⟩, rfl, link_inv hV h hl hm (Or.inl ⟨rfl, rfl⟩) (fun _ h0 => by cases h0) hid hfr hty hseen, fun t ht => ?_⟩
      obtain ⟨e, he, h5⟩ := hu t ht
      refine ⟨e, List.mem_cons_of_mem _ he, ?_⟩
      simp only [finish, chain]
      rw [if_neg (hfr e he)]
      exact h5
  | some m =>
    dsimp only
    by_cases h5 : m.length = 0
    · rw [if_pos h5]
      refine Or.inr ⟨fun ⟨hl, _⟩ => ?_, rfl, rfl⟩
      obtain ⟨v, hv, _⟩ := (hl.2.2.2.2.2 m rfl).2.1
      rw [List.eq_nil_of_length_eq_zero h5] at hv
      cases hv
    rw [if_neg h5]
    by_cases h6 : m.length > 128
    · rw [if_pos h6]
      refine Or.inr ⟨fun ⟨hl, _⟩ => ?_, rfl, rfl⟩
      have := (hl.2.2.2.2.2 m rfl).1
      omega
    rw [if_neg h6]
    by_cases h7 : ((sortColumns cols).any fun i => fixedAt V m i.toNat) = true
    · rw [if_pos h7]
      refine Or.inr ⟨fun ⟨hl, _⟩ => ?_, rfl, rfl⟩
      obtain ⟨i, hi, hf⟩ := List.any_eq_true.mp h7
      exact fixedAt_iff.mp hf ((hl.2.2.2.2.2 m rfl).2.2.2 i (((sort_mem hnr.2) i).mp hi))
    rw [if_neg h7]
    unfold addTemplate
    by_cases h8 : m.any V.isRec = true
    · rw [if_pos h8]
      dsimp only
      rw [if_pos rfl]
      refine Or.inr ⟨fun ⟨hl, _⟩ => ?_, rfl, rfl⟩
      obtain ⟨v, hv, hr⟩ := List.any_eq_true.mp h8
      rw [(hl.2.2.2.2.2 m rfl).2.2.1 v hv] at hr
      cases hr
    rw [if_neg h8]
    by_cases h9 : fixedCount V m = 0
    · rw [if_pos h9]
      dsimp only
      rw [if_pos rfl]
      exact Or.inr ⟨fun ⟨hl, _⟩ => count_pos.mpr (hl.2.2.2.2.2 m rfl).2.1 h9, rfl, rfl⟩
    rw [if_neg h9]
    have hPm := hm m rfl
    have h8' : m.any V.isRec = false := by simpa using h8
    have hl : Legal V cols type (some m) := hbase (some m) fun l h0 => by
      cases h0
      refine ⟨by omega, count_pos.mp h9, fun v hv => ?_, fun i hi => ?_⟩
      · rw [List.any_eq_false] at h8'
        simpa using h8' v hv
      · by_contra hc
        refine h7 (List.any_eq_true.mpr ⟨i, (sort_mem hnr.2 i).mpr hi, fixedAt_iff.mpr hc⟩)
    obtain ⟨hf1, hf2⟩ := findT_ok hV h hPm h9
    by_cases h10 : findT V c.tm (trim V m) (fixedCount V m) c.tlist ≠ 0
    · rw [if_pos h10]
      dsimp only
      rw [if_neg h10]
      obtain ⟨g1, g2⟩ := hf1 h10
      have htf : TFor V c (some m) (findT V c.tm (trim V m) (fixedCount V m) c.tlist) := Or.inr ⟨m, rfl, g1, g2⟩
      have hs := seen_ok hV h hl hm htf
      unfold link
      dsimp only
      by_cases hseen : ∃ e ∈ L, e.Fits V cols type (some m)
      · rw [if_pos (hs.mpr hseen)]
        exact Or.inr ⟨fun h0 => h0.2 hseen, rfl, rfl⟩
      · rw [if_neg (fun h0 => hseen (hs.mp h0)), if_pos hcond]
        refine Or.inl ⟨⟨hl, hseen⟩, rfl, link_inv hV h hl hm htf (fun _ h0 => by cases h0; rfl) hid hfr hty hseen, fun t ht => ?_⟩
        obtain ⟨e, he, h5⟩ := hu t ht
        refine ⟨e, List.mem_cons_of_mem _ he, ?_⟩
        simp only [finish, chain]
        rw [if_neg (hfr e he)]
        exact h5
    · rw [if_neg h10]
      have h10' : findT V c.tm (trim V m) (fixedCount V m) c.tlist = 0 := by simpa using h10
      dsimp only
      rw [if_neg ht0]
      have hno := hf2 h10'
      obtain ⟨hi, hat, hent⟩ := addT_inv hV h hPm h8' h9 ht0 htl href hno
      have hmem : ∀ t, t ∈ (newTemplate V c m al.tmpl).tlist ↔ t = al.tmpl ∨ t ∈ c.tlist := fun t => by
        rw [← List.mem_cons]
        exact (placeT_perm c.tm (fixedCount V m) al.tmpl c.tlist).mem_iff
      have htf : TFor V (newTemplate V c m al.tmpl) (some m) al.tmpl := Or.inr ⟨m, rfl, (hmem _).mpr (Or.inl rfl), by
        simp only [newTemplate, if_true]; exact hat⟩
      have hs := seen_ok hV hi hl hm htf
      have hseen : ¬∃ e ∈ L, e.Fits V cols type (some m) := by
        rintro ⟨e, he, _, _, h3⟩
        exact hent e he ((htf.iff hV hi hm he).mpr h3)
      unfold link
      dsimp only
      rw [if_neg (fun h0 => hseen (hs.mp h0)), if_pos hcond]
      refine Or.inl ⟨⟨hl, hseen⟩, rfl, link_inv hV hi hl hm htf (fun _ h0 => by cases h0; rfl) hid hfr hty hseen, fun t ht => ?_⟩
      rcases (hmem t).mp ht with rfl | ht
      · refine ⟨_, List.mem_cons_self .., ?_⟩
        simp only [finish, chain, if_true]
      · obtain ⟨e, he, h5⟩ := hu t ht
        refine ⟨e, List.mem_cons_of_mem _ he, ?_⟩
        simp only [finish, chain]
        rw [if_neg (hfr e he)]
        exact h5

theorem TTREE_ne : TTREE ≠ TTREE_JSON := by decide

theorem drop_ok {c : Cat κ} {L : List (Ent κ)} (h : CInv V P c L) (hu : Used c L) (id : Nat) (hid : ∀ e ∈ L, e.id = id → e.type = TTREE) :
    ((∃ e ∈ L, e.id = id) ∧ (drop V c id).2 = 0 ∧ CInv V P (drop V c id).1 (L.filter fun x => decide (x.id ≠ id)) ∧
      Used (drop V c id).1 (L.filter fun x => decide (x.id ≠ id))) ∨
    ((¬∃ e ∈ L, e.id = id) ∧ (drop V c id).2 = -1 ∧ (drop V c id).1 = c) := by
  have hmem : id ∈ c.list ↔ ∃ e ∈ L, e.id = id := by rw [h.list, List.mem_map]
  unfold drop
  by_cases h1 : id ∈ c.list
  · rw [if_neg (not_not_intro h1)]
    obtain ⟨e, he, rfl⟩ := hmem.mp h1
    rw [if_pos (Or.inl (by rw [(h.hdr e he).type]; exact hid e he rfl))]
    exact Or.inl ⟨⟨e, he, rfl⟩, rfl, drop_inv h hu he⟩
  · rw [if_pos h1]
    exact Or.inr ⟨fun h2 => h1 (hmem.mpr h2), rfl, rfl⟩

theorem hist_inv (hV : VOk V P) {c : Cat κ} {L : List (Ent κ)} (h : Hist V P c L) : CInv V P c L ∧ Used c L := by
  induction h with
  | init tm => exact ⟨CInv.init tm, fun _ h => by cases h⟩
  | create cols type m al _ h1 h2 h3 h4 h5 h6 h7 h8 ih =>
    rcases create_inv hV ih.1 ih.2 cols type m al h1 h2 h3 h4 h5 h6 h7 h8 with ⟨_, g1, g2⟩ | ⟨_, g1, g2⟩
    · rw [if_pos g1]; exact g2
    · rw [if_neg (by rw [g1]; decide), g2]; exact ih
  | drop id _ h1 ih =>
    rcases drop_ok ih.1 ih.2 id h1 with ⟨_, g1, g2⟩ | ⟨_, g1, g2⟩
    · rw [if_pos g1]; exact g2
    · rw [if_neg (by rw [g1]; decide), g2]; exact ih

end WG.IndexCat
