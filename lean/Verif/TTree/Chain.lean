import Verif.TTree.Search
/-!
# Positions in the tree and in the chain; new leaves
-/
namespace WG.TTree
variable {κ : Type}
open T

theorem preN_append (c e : Ctx κ) : preN (c ++ e) = preN e ++ preN c := by
  induction c with
  | nil => simp [preN]
  | cons f c ih => cases f <;> simp [preN, ih]

theorem postN_append (c e : Ctx κ) : postN (c ++ e) = postN c ++ postN e := by
  induction c with
  | nil => simp [postN]
  | cons f c ih => cases f <;> simp [postN, ih]

theorem zipper_at : ∀ (t : T κ) {pre post : List (D κ)} {d : D κ}, t.nodes = pre ++ d :: post →
    ∃ c l r, t = plug c (.node d l r) ∧ pre = preN c ++ l.nodes ∧ post = r.nodes ++ postN c := by
  intro t
  induction t with
  | nil => intro pre post d h; simp at h
  | node d0 l r ihl ihr =>
    intro pre post d h
    rw [nodes_node, List.append_eq_append_iff] at h
    rcases h with ⟨a, h1, h2⟩ | ⟨a, h1, h2⟩
    · cases a with
      | nil =>
        simp only [List.nil_append, List.cons.injEq] at h2
        obtain ⟨rfl, rfl⟩ := h2
        exact ⟨[], l, r, rfl, by simpa [preN] using h1, by simp [postN]⟩
      | cons b a =>
        simp only [List.cons_append, List.cons.injEq] at h2
        obtain ⟨rfl, h2⟩ := h2
        obtain ⟨c, l', r', e1, e2, e3⟩ := ihr h2
        refine ⟨c ++ [.R d0 l], l', r', by rw [plug_append, ← e1]; rfl, ?_, ?_⟩
        · rw [h1, e2, preN_append]; simp [preN]
        · rw [e3, postN_append]; simp [postN]
    · cases a with
      | nil =>
        simp only [List.nil_append, List.cons.injEq] at h2
        obtain ⟨rfl, rfl⟩ := h2
        exact ⟨[], l, r, rfl, by simpa [preN] using h1.symm, by simp [postN]⟩
      | cons b a =>
        simp only [List.cons_append, List.cons.injEq] at h2
        obtain ⟨rfl, h2⟩ := h2
        obtain ⟨c, l', r', e1, e2, e3⟩ := ihl h1
        refine ⟨c ++ [.L d0 r], l', r', by rw [plug_append, ← e1]; rfl, ?_, ?_⟩
        · rw [e2, preN_append]; simp [preN]
        · rw [h2, e3, postN_append]; simp [postN]

theorem Rep.links {s : St κ} {t : T κ} (h : Rep s t) {pre post : List (D κ)} {d : D κ} (e : t.nodes = pre ++ d :: post) :
    (s.h d.id).pred = lastId pre ∧ (s.h d.id).succ = headId post := by
  have hc := h.chain
  rw [show t.ids = pre.map D.id ++ d.id :: post.map D.id by simp [ids, e], Dll.append] at hc
  exact ⟨hc.2.1, hc.2.2.1⟩

theorem Dll.setEnd {h h' : Nat → Nd κ} : ∀ {A : List Nat} {p n n' : Nat}, Dll h p A n → A.Nodup → (∀ i ∈ A, (h' i).pred = (h i).pred) →
    (∀ i ∈ A, i ≠ A.getLastD 0 → (h' i).succ = (h i).succ) → (A ≠ [] → (h' (A.getLastD 0)).succ = n') → Dll h' p A n' := by
  intro A
  induction A with
  | nil => intros; trivial
  | cons a A ih =>
    intro p n n' hd hn h1 h2 h3
    rw [List.nodup_cons] at hn
    cases A with
    | nil =>
      simp only [List.getLastD_cons, List.getLastD_nil] at h3
      exact ⟨(h1 a (by simp)).trans hd.1, h3 (by simp), trivial⟩
    | cons b A =>
      have hl : (a :: b :: A).getLastD 0 = (b :: A).getLastD 0 := by simp only [List.getLastD_cons]
      have hm : (b :: A).getLastD 0 ∈ b :: A := last_mem (by simp)
      rw [hl] at h2 h3
      have hne : a ≠ (b :: A).getLastD 0 := fun e => hn.1 (e ▸ hm)
      exact ⟨(h1 a (by simp)).trans hd.1, (h2 a (by simp) hne).trans hd.2.1, ih hd.2.2 hn.2 (fun i hi => h1 i (by simp at hi ⊢; tauto))
        (fun i hi => h2 i (by simp at hi ⊢; tauto)) (fun _ => h3 (by simp))⟩

theorem Dll.setStart {h h' : Nat → Nd κ} {B : List Nat} {p p' n : Nat} (hd : Dll h p B n) (hn : B.Nodup) (h1 : ∀ i ∈ B, (h' i).succ = (h i).succ)
    (h2 : ∀ i ∈ B, i ≠ B.headD 0 → (h' i).pred = (h i).pred) (h3 : B ≠ [] → (h' (B.headD 0)).pred = p') : Dll h' p' B n := by
  cases B with
  | nil => trivial
  | cons b B =>
    rw [List.nodup_cons] at hn
    refine ⟨h3 (by simp), (h1 b (by simp)).trans hd.2.1, hd.2.2.congr ?_⟩
    intro i hi
    exact ⟨h1 i (by simp [hi]), h2 i (by simp [hi]) (fun e => hn.1 (by rw [List.headD_cons] at e; exact e ▸ hi))⟩

theorem lastD_of_ne {A : List Nat} (h : A ≠ []) (p : Nat) : A.getLastD p = A.getLastD 0 := by
  cases A with
  | nil => exact absurd rfl h
  | cons a A => rw [List.getLastD_cons, List.getLastD_cons]

/-- A new node in the chain. -/
theorem Dll.insert {h h' : Nat → Nd κ} {A B : List Nat} {x : Nat} (hd : Dll h 0 (A ++ B) 0) (hn : (A ++ B).Nodup)
    (hx1 : (h' x).succ = B.headD 0) (hx2 : (h' x).pred = A.getLastD 0)
    (hs : ∀ i ∈ A ++ B, (h' i).succ = if i = A.getLastD 0 ∧ A ≠ [] then x else (h i).succ)
    (hp : ∀ i ∈ A ++ B, (h' i).pred = if i = B.headD 0 ∧ B ≠ [] then x else (h i).pred) : Dll h' 0 (A ++ x :: B) 0 := by
  rw [Dll.append] at hd ⊢
  rw [List.nodup_append] at hn
  obtain ⟨n1, n2, n3⟩ := hn
  refine ⟨hd.1.setEnd n1 ?_ ?_ ?_, hx2, hx1, hd.2.setStart n2 ?_ ?_ ?_⟩
  · intro i hi
    rw [hp i (by simp [hi]), if_neg]
    rintro ⟨e, hb⟩
    exact n3 i hi _ (head_mem hb) e
  · intro i hi hne
    rw [hs i (by simp [hi]), if_neg (fun e => hne e.1)]
  · intro hne
    rw [hs _ (List.mem_append.2 (.inl (last_mem hne))), if_pos ⟨rfl, hne⟩]; rfl
  · intro i hi
    rw [hs i (by simp [hi]), if_neg]
    rintro ⟨e, ha⟩
    exact n3 _ (last_mem ha) i hi e.symm
  · intro i hi hne
    rw [hp i (by simp [hi]), if_neg (fun e => hne e.1)]
  · intro hne
    rw [hp _ (List.mem_append.2 (.inr (head_mem hne))), if_pos ⟨rfl, hne⟩]

/-- A node leaves the chain. -/
theorem Dll.remove {h h' : Nat → Nd κ} {A B : List Nat} {x : Nat} (hd : Dll h 0 (A ++ x :: B) 0) (hn : (A ++ B).Nodup)
    (hs : ∀ i ∈ A ++ B, (h' i).succ = if i = A.getLastD 0 ∧ A ≠ [] then B.headD 0 else (h i).succ)
    (hp : ∀ i ∈ A ++ B, (h' i).pred = if i = B.headD 0 ∧ B ≠ [] then A.getLastD 0 else (h i).pred) : Dll h' 0 (A ++ B) 0 := by
  rw [Dll.append] at hd ⊢
  rw [List.nodup_append] at hn
  obtain ⟨n1, n2, n3⟩ := hn
  refine ⟨hd.1.setEnd n1 ?_ ?_ ?_, hd.2.2.2.setStart n2 ?_ ?_ ?_⟩
  · intro i hi
    rw [hp i (by simp [hi]), if_neg]
    rintro ⟨e, hb⟩
    exact n3 i hi _ (head_mem hb) e
  · intro i hi hne
    rw [hs i (by simp [hi]), if_neg (fun e => hne e.1)]
  · intro hne
    rw [hs _ (List.mem_append.2 (.inl (last_mem hne))), if_pos ⟨rfl, hne⟩]
  · intro i hi
    rw [hs i (by simp [hi]), if_neg]
    rintro ⟨e, ha⟩
    exact n3 _ (last_mem ha) i hi e.symm
  · intro i hi hne
    rw [hp i (by simp [hi]), if_neg (fun e => hne e.1)]
  · intro hne
    rw [hp _ (List.mem_append.2 (.inr (head_mem hne))), if_pos ⟨rfl, hne⟩]

/-- A new leaf. -/
def leafD (nn : Nat) (v : κ) (row : Nat) : D κ := { id := nn, lh := 0, rh := 0, mn := v, mx := v, vals := [row] }

theorem attachLeft_h {s : St κ} {d nn row p : Nat} {v : κ} (hdn : d ≠ nn) (hp : (s.h d).pred = p) (h : p ≠ 0 → p ≠ d ∧ p ≠ nn) :
    (∀ i, (attachLeft (newLeaf s nn d v row) d nn).h i =
      if i = d then { s.h d with left := nn, pred := nn }
      else if i = nn then { parent := d, left := 0, right := 0, lh := 0, rh := 0, mn := v, mx := v, vals := [row], succ := d, pred := p }
      else if i = p ∧ p ≠ 0 then { s.h i with succ := nn } else s.h i) ∧
    (attachLeft (newLeaf s nn d v row) d nn).root = s.root ∧ (attachLeft (newLeaf s nn d v row) d nn).maxN = s.maxN ∧
    (attachLeft (newLeaf s nn d v row) d nn).minN = if p = 0 then nn else s.minN := by
  have hnd := Ne.symm hdn
  by_cases hp0 : p = 0
  · subst hp0
    refine ⟨?_, ?_, ?_, ?_⟩
    · intro i
      simp only [attachLeft, newLeaf, St.mod]
      by_cases e1 : i = d
      · subst e1; simp [hp, hdn]
      · by_cases e2 : i = nn
        · subst e2; simp [hnd, hdn, hp]
        · simp [e1, e2, hdn, hp]
    all_goals simp [attachLeft, newLeaf, St.mod, hp, hdn]
  · obtain ⟨l1, l2⟩ := h hp0
    have l1' := Ne.symm l1
    have l2' := Ne.symm l2
    refine ⟨?_, ?_, ?_, ?_⟩
    · intro i
      simp only [attachLeft, newLeaf, St.mod]
      by_cases e1 : i = d
      · subst e1; simp [hp, hdn, hp0, l1, l1']
      · by_cases e2 : i = nn
        · subst e2; simp [hnd, hdn, hp, hp0, l1, l1', l2, l2']
        · by_cases e3 : i = p
          · subst e3; simp [e1, e2, hdn, hnd, hp, hp0, l1', l2']
          · simp [e1, e2, e3, hdn, hp, hp0]
    all_goals simp [attachLeft, newLeaf, St.mod, hp, hdn, hp0]

theorem attachRight_h {s : St κ} {d nn row p : Nat} {v : κ} (hdn : d ≠ nn) (hp : (s.h d).succ = p) (h : p ≠ 0 → p ≠ d ∧ p ≠ nn) :
    (∀ i, (attachRight (newLeaf s nn d v row) d nn).h i =
      if i = d then { s.h d with right := nn, succ := nn }
      else if i = nn then { parent := d, left := 0, right := 0, lh := 0, rh := 0, mn := v, mx := v, vals := [row], succ := p, pred := d }
      else if i = p ∧ p ≠ 0 then { s.h i with pred := nn } else s.h i) ∧
    (attachRight (newLeaf s nn d v row) d nn).root = s.root ∧ (attachRight (newLeaf s nn d v row) d nn).minN = s.minN ∧
    (attachRight (newLeaf s nn d v row) d nn).maxN = if p = 0 then nn else s.maxN := by
  have hnd := Ne.symm hdn
  by_cases hp0 : p = 0
  · subst hp0
    refine ⟨?_, ?_, ?_, ?_⟩
    · intro i
      simp only [attachRight, newLeaf, St.mod]
      by_cases e1 : i = d
      · subst e1; simp [hp, hdn]
      · by_cases e2 : i = nn
        · subst e2; simp [hnd, hdn, hp]
        · simp [e1, e2, hdn, hp]
    all_goals simp [attachRight, newLeaf, St.mod, hp, hdn]
  · obtain ⟨l1, l2⟩ := h hp0
    have l1' := Ne.symm l1
    have l2' := Ne.symm l2
    refine ⟨?_, ?_, ?_, ?_⟩
    · intro i
      simp only [attachRight, newLeaf, St.mod]
      by_cases e1 : i = d
      · subst e1; simp [hp, hdn, hp0, l1, l1']
      · by_cases e2 : i = nn
        · subst e2; simp [hnd, hdn, hp, hp0, l1, l1', l2, l2']
        · by_cases e3 : i = p
          · subst e3; simp [e1, e2, hdn, hnd, hp, hp0, l1', l2']
          · simp [e1, e2, e3, hdn, hp, hp0]
    all_goals simp [attachRight, newLeaf, St.mod, hp, hdn, hp0]

theorem attachLeft_rep {s : St κ} {c : Ctx κ} {d : D κ} {r : T κ} {nn row : Nat} {v : κ} (hr : Rep s (plug c (.node d .nil r)))
    (hnn : nn ≠ 0) (hfr : nn ∉ (plug c (.node d .nil r)).ids) :
    Rep (attachLeft (newLeaf s nn d.id v row) d.id nn) (plug c (.node d (.node (leafD nn v row) .nil .nil) r)) := by
  obtain ⟨rC, rT⟩ := hr.focus
  obtain ⟨n1, n2, n3, n4⟩ := hr.nodup3
  have hlink := hr.links (pre := preN c) (d := d) (post := r.nodes ++ postN c) (by simp [nodes_plug])
  have hids : (plug c (.node d .nil r)).ids = (preN c).map D.id ++ (d.id :: r.ids ++ (postN c).map D.id) := by simp [ids_plug]
  have hids' : (plug c (.node d (.node (leafD nn v row) .nil .nil) r)).ids = (preN c).map D.id ++ nn :: (d.id :: r.ids ++ (postN c).map D.id) := by
    simp [ids_plug, leafD]
  have hnd := hr.nodup
  have hps := hr.pos
  have hch := hr.chain
  have hmn := hr.minN
  have hmx := hr.maxN
  rw [hids] at hnd hps hfr hch hmn hmx
  have hdn : d.id ≠ nn := fun e => hfr (by simp [e])
  have hd0 : d.id ≠ 0 := fun e => hps (by simp [e])
  generalize hA : (preN c).map D.id = A at *
  have hpd : (s.h d.id).pred = A.getLastD 0 := by rw [hlink.1, ← hA]; rfl
  have hAd : ∀ a ∈ A, a ≠ d.id := by
    intro a ha e
    exact (List.nodup_append.1 hnd).2.2 a ha d.id (by simp) e
  have hAn : ∀ a ∈ A, a ≠ nn := fun a ha e => hfr (by simp [← e, ha])
  have hlast : A ≠ [] → A.getLastD 0 ≠ d.id ∧ A.getLastD 0 ≠ nn ∧ A.getLastD 0 ≠ 0 := fun h =>
    ⟨hAd _ (last_mem h), hAn _ (last_mem h), fun e => hps (by rw [← e]; exact List.mem_append.2 (.inl (last_mem h)))⟩
  have hz : A ≠ [] ↔ A.getLastD 0 ≠ 0 := ⟨fun h => (hlast h).2.2, fun h e => h (by rw [e]; rfl)⟩
  obtain ⟨hh, hroot, hmax, hmin⟩ := attachLeft_h (row := row) (v := v) hdn hpd (fun h => ⟨(hlast (hz.2 h)).1, (hlast (hz.2 h)).2.1⟩)
  generalize attachLeft (newLeaf s nn d.id v row) d.id nn = s' at *
  have same : ∀ i, i ≠ d.id → i ≠ nn → (s'.h i).Same (s.h i) := by
    intro i e1 e2
    rw [hh i, if_neg e1, if_neg e2]
    split_ifs <;> exact ⟨rfl, rfl, rfl, rfl, rfl, rfl, rfl, rfl⟩
  have hfr' : ∀ e ∈ preN c ++ postN c, e.id ≠ d.id ∧ e.id ≠ nn := by
    intro e he
    refine ⟨fun x => ?_, fun x => hfr ?_⟩
    · rcases List.mem_append.1 he with he | he
      · exact n3 e he (by simp [x])
      · exact n4 e he (by simp [x])
    · rw [← hA]
      rcases List.mem_append.1 he with he | he
      · exact List.mem_append.2 (.inl (x ▸ List.mem_map_of_mem he))
      · refine List.mem_append.2 (.inr (List.mem_append.2 (.inr (x ▸ List.mem_map_of_mem he))))
  have q := repT_plug.2 (show RepC s'.h s'.root c (T.node d (.node (leafD nn v row) .nil .nil) r).rid ∧ RepT s'.h (pid c) (.node d (.node (leafD nn v row) .nil .nil) r) by
    refine ⟨?_, ?_, ⟨?_, trivial, trivial⟩, ?_⟩
    · rw [hroot]
      exact rC.congr (fun e he => same _ (hfr' e (by simp [he])).1 (hfr' e (by simp [he])).2) (fun e he => same _ (hfr' e (by simp [he])).1 (hfr' e (by simp [he])).2)
    · rw [hh, if_pos rfl]
      have i := rT.1
      exact ⟨i.1, rfl, i.3, i.4, i.5, i.6, i.7, i.8⟩
    · show (s'.h nn).Is _ _ _ _
      rw [hh, if_neg (Ne.symm hdn), if_pos rfl]
      exact ⟨rfl, rfl, rfl, rfl, rfl, rfl, rfl, rfl⟩
    · refine rT.2.2.congr ?_
      intro i hi
      simp only [ids_node, ids_nil, List.nil_append, List.nodup_cons] at n1
      exact same i (fun e => n1.1 (e ▸ hi)) (fun e => hfr (by simp [← e, hi])))
  refine ⟨q.1, q.2, ?_, ?_, ?_, ?_, ?_⟩
  · rw [hids']
    rw [List.nodup_append] at hnd ⊢
    simp only [List.mem_append, not_or] at hfr
    refine ⟨hnd.1, List.nodup_cons.2 ⟨fun h => (by simpa using hfr.2 : (¬nn = d.id ∧ ¬nn ∈ r.ids) ∧ ∀ x ∈ postN c, ¬ x.id = nn) |> fun g => by simp only [List.cons_append, List.mem_cons, List.mem_append, List.mem_map] at h; rcases h with h | h | ⟨x, h, h'⟩; exacts [g.1.1 h, g.1.2 h, g.2 x h h'], hnd.2.1⟩, ?_⟩
    intro a ha b hb
    rcases List.mem_cons.1 hb with rfl | hb
    · exact hAn a ha
    · exact hnd.2.2 a ha b hb
  · rw [hids']
    simp only [List.mem_append, List.mem_cons, not_or] at hps ⊢
    exact ⟨hps.1, Ne.symm hnn, by simpa [not_or] using hps.2⟩
  · rw [hids']
    refine hch.insert hnd ?_ ?_ ?_ ?_
    · rw [hh, if_neg (Ne.symm hdn), if_pos rfl]; rfl
    · rw [hh, if_neg (Ne.symm hdn), if_pos rfl]
    · intro i hi
      have hin : i ≠ nn := fun e => hfr (e ▸ hi)
      rw [hh]
      by_cases e1 : i = d.id
      · subst e1
        have : ¬ (d.id = A.getLastD 0 ∧ A ≠ []) := fun h => (hlast h.2).1 h.1.symm
        rw [if_pos rfl, if_neg this]
      · rw [if_neg e1, if_neg hin]
        by_cases hq : i = A.getLastD 0 ∧ A ≠ []
        · rw [if_pos hq, if_pos ⟨hq.1, hz.1 hq.2⟩]
        · rw [if_neg hq, if_neg (fun h => hq ⟨h.1, hz.2 h.2⟩)]
    · intro i hi
      have hin : i ≠ nn := fun e => hfr (e ▸ hi)
      rw [hh]
      by_cases e1 : i = d.id
      · subst e1; simp
      · rw [if_neg e1, if_neg hin]
        have : ¬ (i = (d.id :: r.ids ++ (postN c).map D.id).headD 0 ∧ (d.id :: r.ids ++ (postN c).map D.id) ≠ []) := by simp [e1]
        rw [if_neg this]
        split_ifs <;> rfl
  · rw [hids', hmin, hmn]
    by_cases hAe : A = []
    · rw [if_pos (by rw [hAe]; rfl), hAe]; rfl
    · rw [if_neg (hz.1 hAe), headD_append hAe, headD_append hAe]
  · rw [hids', hmax, hmx]
    rw [getLastD_append (m := d.id :: r.ids ++ (postN c).map D.id) (by simp), getLastD_append (m := nn :: (d.id :: r.ids ++ (postN c).map D.id)) (by simp),
      List.getLastD_cons]
    exact (lastD_of_ne (by simp) nn).symm

theorem attachRight_rep {s : St κ} {c : Ctx κ} {d : D κ} {l : T κ} {nn row : Nat} {v : κ} (hr : Rep s (plug c (.node d l .nil)))
    (hnn : nn ≠ 0) (hfr : nn ∉ (plug c (.node d l .nil)).ids) :
    Rep (attachRight (newLeaf s nn d.id v row) d.id nn) (plug c (.node d l (.node (leafD nn v row) .nil .nil))) := by
  obtain ⟨rC, rT⟩ := hr.focus
  obtain ⟨n1, n2, n3, n4⟩ := hr.nodup3
  have hlink := hr.links (pre := preN c ++ l.nodes) (d := d) (post := postN c) (by simp [nodes_plug])
  have hids : (plug c (.node d l .nil)).ids = ((preN c).map D.id ++ l.ids ++ [d.id]) ++ (postN c).map D.id := by simp [ids_plug]
  have hids' : (plug c (.node d l (.node (leafD nn v row) .nil .nil))).ids = ((preN c).map D.id ++ l.ids ++ [d.id]) ++ nn :: (postN c).map D.id := by
    simp [ids_plug, leafD]
  have hnd := hr.nodup
  have hps := hr.pos
  have hch := hr.chain
  have hmn := hr.minN
  have hmx := hr.maxN
  rw [hids] at hnd hps hfr hch hmn hmx
  have hdn : d.id ≠ nn := fun e => hfr (by simp [e])
  have hd0 : d.id ≠ 0 := fun e => hps (by simp [e])
  generalize hB : (postN c).map D.id = B at *
  have hsd : (s.h d.id).succ = B.headD 0 := by rw [hlink.2, ← hB]; rfl
  have hBd : ∀ b ∈ B, b ≠ d.id := by
    intro b hb e
    exact (List.nodup_append.1 hnd).2.2 d.id (by simp) b hb e.symm
  have hBn : ∀ b ∈ B, b ≠ nn := fun b hb e => hfr (by simp [← e, hb])
  have hfirst : B ≠ [] → B.headD 0 ≠ d.id ∧ B.headD 0 ≠ nn ∧ B.headD 0 ≠ 0 := fun h =>
    ⟨hBd _ (head_mem h), hBn _ (head_mem h), fun e => hps (by rw [← e]; exact List.mem_append.2 (.inr (head_mem h)))⟩
  have hz : B ≠ [] ↔ B.headD 0 ≠ 0 := ⟨fun h => (hfirst h).2.2, fun h e => h (by rw [e]; rfl)⟩
  obtain ⟨hh, hroot, hmin, hmax⟩ := attachRight_h (row := row) (v := v) hdn hsd (fun h => ⟨(hfirst (hz.2 h)).1, (hfirst (hz.2 h)).2.1⟩)
  generalize attachRight (newLeaf s nn d.id v row) d.id nn = s' at *
  have same : ∀ i, i ≠ d.id → i ≠ nn → (s'.h i).Same (s.h i) := by
    intro i e1 e2
    rw [hh i, if_neg e1, if_neg e2]
    split_ifs <;> exact ⟨rfl, rfl, rfl, rfl, rfl, rfl, rfl, rfl⟩
  have hfr' : ∀ e ∈ preN c ++ postN c, e.id ≠ d.id ∧ e.id ≠ nn := by
    intro e he
    refine ⟨fun x => ?_, fun x => hfr ?_⟩
    · rcases List.mem_append.1 he with he | he
      · exact n3 e he (by simp [x])
      · exact n4 e he (by simp [x])
    · rw [← hB]
      rcases List.mem_append.1 he with he | he
      · exact List.mem_append.2 (.inl (List.mem_append.2 (.inl (List.mem_append.2 (.inl (x ▸ List.mem_map_of_mem he))))))
      · exact List.mem_append.2 (.inr (x ▸ List.mem_map_of_mem he))
  have q := repT_plug.2 (show RepC s'.h s'.root c (T.node d l (.node (leafD nn v row) .nil .nil)).rid ∧ RepT s'.h (pid c) (.node d l (.node (leafD nn v row) .nil .nil)) by
    refine ⟨?_, ?_, ?_, ⟨?_, trivial, trivial⟩⟩
    · rw [hroot]
      exact rC.congr (fun e he => same _ (hfr' e (by simp [he])).1 (hfr' e (by simp [he])).2) (fun e he => same _ (hfr' e (by simp [he])).1 (hfr' e (by simp [he])).2)
    · rw [hh, if_pos rfl]
      have i := rT.1
      exact ⟨i.1, i.2, rfl, i.4, i.5, i.6, i.7, i.8⟩
    · refine rT.2.1.congr ?_
      intro i hi
      simp only [ids_node, ids_nil, List.nodup_append] at n1
      exact same i (fun e => n1.2.2 i hi d.id (by simp) e) (fun e => hfr (by simp [← e, hi]))
    · show (s'.h nn).Is _ _ _ _
      rw [hh, if_neg (Ne.symm hdn), if_pos rfl]
      exact ⟨rfl, rfl, rfl, rfl, rfl, rfl, rfl, rfl⟩)
  generalize hA : (preN c).map D.id ++ l.ids = A at *
  refine ⟨q.1, q.2, ?_, ?_, ?_, ?_, ?_⟩
  · rw [hids']
    rw [List.nodup_append] at hnd ⊢
    simp only [List.mem_append, not_or] at hfr
    refine ⟨hnd.1, List.nodup_cons.2 ⟨hfr.2, hnd.2.1⟩, ?_⟩
    intro a ha b hb
    rcases List.mem_cons.1 hb with rfl | hb
    · rintro rfl
      rcases List.mem_append.1 ha with ha | ha
      · exact hfr.1.1 ha
      · exact hfr.1.2 ha
    · exact hnd.2.2 a ha b hb
  · rw [hids']
    simp only [List.mem_append, List.mem_cons, not_or] at hps ⊢
    exact ⟨hps.1, Ne.symm hnn, hps.2⟩
  · rw [hids']
    have hl : (A ++ [d.id]).getLastD 0 = d.id := by rw [getLastD_append (by simp)]; rfl
    refine hch.insert hnd ?_ ?_ ?_ ?_
    · rw [hh, if_neg (Ne.symm hdn), if_pos rfl]
    · rw [hh, if_neg (Ne.symm hdn), if_pos rfl, hl]
    · intro i hi
      have hin : i ≠ nn := fun e => hfr (e ▸ hi)
      rw [hh, hl]
      by_cases e1 : i = d.id
      · subst e1; simp
      · rw [if_neg e1, if_neg hin, if_neg (c := i = d.id ∧ _) (fun h => e1 h.1)]
        split_ifs <;> rfl
    · intro i hi
      have hin : i ≠ nn := fun e => hfr (e ▸ hi)
      rw [hh]
      by_cases e1 : i = d.id
      · subst e1
        have : ¬ (d.id = B.headD 0 ∧ B ≠ []) := fun h => (hfirst h.2).1 h.1.symm
        rw [if_pos rfl, if_neg this]
      · rw [if_neg e1, if_neg hin]
        by_cases hq : i = B.headD 0 ∧ B ≠ []
        · rw [if_pos hq, if_pos ⟨hq.1, hz.1 hq.2⟩]
        · rw [if_neg hq, if_neg (fun h => hq ⟨h.1, hz.2 h.2⟩)]
  · rw [hids', hmin, hmn]
    rw [headD_append (l := A ++ [d.id]) (by simp), headD_append (l := A ++ [d.id]) (by simp)]
  · rw [hids', hmax, hmx]
    cases B with
    | nil => rw [if_pos (show ([] : List Nat).headD 0 = 0 from rfl), getLastD_append (m := [nn]) (by simp)]; rfl
    | cons b B =>
      rw [if_neg (hz.1 (by simp)), getLastD_append (by simp), getLastD_append (by simp)]
      simp only [List.getLastD_cons]

end WG.TTree
