import Verif.Json.Top
/-! # Broken texts: any sequence of calls -/
namespace WG.Json
open WG.Recs

variable {C : Prop} {ι : Type} {h h' : Heap} {X : Ix ι} {s0 s s' : Db ι} {k N : Nat} {L : List Word} {A : Alloc ι}

/-- The state between two calls. -/
structure Mid (C : Prop) (X : Ix ι) (s0 : Db ι) (k : Nat) (c : Ctx ι) : Prop where
  linv : LInv C X s0 k c.db (loose c.stack)
  keys : ∀ e ∈ c.stack, ∀ kk, e.key = some kk → 0#8 ∉ kk

/-- What a call may do. -/
def Went (C : Prop) (X : Ix ι) (s0 : Db ι) (h : Heap) (n : Nat) (c' : Ctx ι) (b : Bool) : Prop :=
  Ext h c'.db.h ∧ (∃ k, LInv C X s0 k c'.db []) ∧ (b = true → ∃ k', Mid C X s0 k' c' ∧ k' + (loose c'.stack).length ≤ n)

theorem Went.stop {n : Nat} {c' : Ctx ι} (he : Ext h c'.db.h) (hL : LInv C X s0 k c'.db L) : Went C X s0 h n c' false := ⟨he, ⟨k, hL.nil⟩, by simp⟩
theorem Went.go {n : Nat} {c' : Ctx ι} (he : Ext h c'.db.h) (hm : Mid C X s0 k c') (hk : k + (loose c'.stack).length ≤ n) : Went C X s0 h n c' true :=
  ⟨he, ⟨k, hm.linv.nil⟩, fun _ => ⟨k, hm, hk⟩⟩

theorem addLiteral_safe (E : Env A C X s0 N) {c c' : Ctx ι} {b : Bool} {w : Word} (hL : LInv C X s0 k c.db (w :: loose c.stack))
    (hk : ∀ e ∈ c.stack, ∀ kk, e.key = some kk → 0#8 ∉ kk) (hn : k + 5 ≤ N) (h : addLiteral A X c w = some (c', b)) :
    Went C X s0 c.db.h (k + 6 + (loose c.stack).length) c' b := by
  cases hs : c.stack with
  | nil =>
    rw [addLiteral, hs] at h
    cases h
    exact .stop (Ext.refl _) hL
  | cons e rest =>
    rw [hs] at hL hk
    have hkey : ∃ evs, KeyOK evs e := by
      by_cases ha : e.arr = true
      · exact ⟨[], Or.inl ha⟩
      · cases hke : e.key with
        | none => simp [addLiteral, hs, ha, hke] at h
        | some kk => exact ⟨[.key kk], Or.inr ⟨kk, kk, hke, hk e (by simp) kk hke, by simp, List.prefix_refl _⟩⟩
    obtain ⟨evs, hkey⟩ := hkey
    rcases addLiteral_ok (evs := evs) E hs hL hkey hn with ⟨c1, g1, g2, ⟨k', g3⟩, _⟩ | ⟨s', x, k', g1, g2, g3, g4, _⟩
    · rw [g1] at h; cases h
      exact .stop g2 g3
    · rw [g1] at h; cases h
      have hlx : (loose ({ e with elems := e.elems ++ [x] } :: rest)).length = (loose (e :: rest)).length + 1 := by
        rw [← (loose_push e x rest).length_eq]; rfl
      refine .go g3 ⟨g4, ?_⟩ ?_
      · intro e' he'
        rcases List.mem_cons.1 he' with rfl | he'
        · exact hk e (by simp)
        · exact hk e' (by simp [he'])
      · rw [show (Ctx.stack _) = { e with elems := e.elems ++ [x] } :: rest from rfl, hlx]; omega

theorem pop_safe (E : Env A C X s0 N) {c c' : Ctx ι} {b : Bool} (hm : Mid C X s0 k c) (hn : k + (loose c.stack).length + 7 ≤ N) (h : pop A X c = some (c', b)) :
    Went C X s0 c.db.h (k + 7 + (loose c.stack).length) c' b := by
  have hL := hm.linv
  have hk := hm.keys
  cases hs : c.stack with
  | nil =>
    rw [pop, hs] at h
    cases h
    exact .stop (Ext.refl _) hL
  | cons e rest =>
    rw [hs] at hL hk hn
    have hlen : (loose (e :: rest)).length = e.elems.length + (loose rest).length := by rw [loose_cons, List.length_append]
    rw [loose_cons] at hL
    rw [pop, hs] at h
    dsimp only at h
    rcases hc : createStruct A X c.db e.arr e.elems.length (rest.isEmpty && c.isdoc) c.param with ⟨s1, o⟩
    rw [hc] at h
    rcases hL.struct E (by omega) _ _ _ hc with ⟨rfl, f1, f2, f3⟩ | ⟨f0, f1, s2, f2, f3, f4, rc, f5, f6, f7, f8⟩
    · rw [if_pos rfl] at h; cases h
      exact .stop f2 f3
    · rw [if_neg f0, f2] at h
      dsimp only at h
      have hk' : ∀ e ∈ rest, ∀ kk, e.key = some kk → 0#8 ∉ kk := fun e' he' => hk e' (by simp [he'])
      by_cases hr : rest.isEmpty = true
      · rw [if_pos hr] at h; cases h
        refine .go f3 ⟨f4.tail, hk'⟩ ?_
        show _ + (loose rest).length ≤ _
        omega
      · rw [if_neg hr, if_pos rfl] at h
        obtain ⟨g1, g2, g3⟩ := addLiteral_safe (c := { c with db := s2, stack := rest }) E f4 hk' (by omega) h
        refine ⟨f3.trans g1, g2, fun hb => ?_⟩
        obtain ⟨k', h1, h2⟩ := g3 hb
        refine ⟨k', h1, h2.trans ?_⟩
        show _ + (loose rest).length ≤ _
        omega

theorem handle_safe (E : Env A C X s0 N) {c c' : Ctx ι} {b : Bool} {ev : Ev} (hm : Mid C X s0 k c) (hn : k + (loose c.stack).length + 7 ≤ N) (h : handle A X c ev = some (c', b)) :
    Went C X s0 c.db.h (k + 7 + (loose c.stack).length) c' b := by
  have hlit : ∀ {h1 : Heap} {w : Word}, LInv C X s0 (k + 1) ⟨h1, c.db.ix⟩ (w :: loose c.stack) → Ext c.db.h h1 →
      (if w = illegal then some ({ c with db := ⟨h1, c.db.ix⟩ }, false) else addLiteral A X { c with db := ⟨h1, c.db.ix⟩ } w) = some (c', b) →
      Went C X s0 c.db.h (k + 7 + (loose c.stack).length) c' b := by
    intro h1 w e1 e2 e3
    split_ifs at e3
    · cases e3; exact .stop e2 e1
    · obtain ⟨g1, g2, g3⟩ := addLiteral_safe (c := { c with db := ⟨h1, c.db.ix⟩ }) E e1 hm.keys (by omega) e3
      refine ⟨e2.trans g1, g2, fun hb => ?_⟩
      obtain ⟨k', h1, h2⟩ := g3 hb
      refine ⟨k', h1, h2.trans ?_⟩
      show _ + (loose c.stack).length ≤ _
      omega
  have hpush : ∀ arr, some (push c arr) = some (c', b) → Went C X s0 c.db.h (k + 7 + (loose c.stack).length) c' b := by
    intro arr e
    rw [push] at e
    split_ifs at e
    · cases e; exact .stop (Ext.refl _) hm.linv
    · cases e
      have hl : loose (⟨arr, [], none⟩ :: c.stack) = loose c.stack := by rw [loose_cons]; rfl
      refine .go (Ext.refl _) (k := k) ⟨by show LInv C X s0 k c.db (loose (_ :: c.stack)); rw [hl]; exact hm.linv, ?_⟩ (by show k + (loose (_ :: c.stack)).length ≤ _; rw [hl]; omega)
      intro e he kk hkk
      rcases List.mem_cons.1 he with rfl | he
      · cases hkk
      · exact hm.keys e he kk hkk
  cases ev with
  | null => cases h; exact .go (Ext.refl _) hm (by omega)
  | bool _ => cases h; exact .go (Ext.refl _) hm (by omega)
  | int v =>
    rcases he : encInt c.db.h v (A.int c.db) with ⟨h1, w⟩
    obtain ⟨g1, g2, _⟩ := hm.linv.int E.ok v he
    rw [handle, he] at h
    exact hlit g1 g2 h
  | dbl v =>
    rcases he : encDouble c.db.h v (A.dbl c.db) with ⟨h1, w⟩
    obtain ⟨g1, g2, _⟩ := hm.linv.dbl E.ok v he
    rw [handle, he] at h
    exact hlit g1 g2 h
  | str t =>
    obtain ⟨h1, w, he, g1, g2, _⟩ := hm.linv.str E.ok (cut_nul t)
    rw [handle, he] at h
    exact hlit g1 g2 h
  | startMap => exact hpush false h
  | startArr => exact hpush true h
  | key s =>
    rw [handle, addKey] at h
    cases hs : c.stack with
    | nil => rw [hs] at h; cases h; exact .stop (Ext.refl _) hm.linv
    | cons e rest =>
      rw [hs] at h; cases h
      have h1 := hm.linv
      have h2 := hm.keys
      rw [hs] at h1 h2
      refine .go (Ext.refl _) (k := k) ⟨h1, ?_⟩ ?_
      · intro e' he' kk hkk
        rcases List.mem_cons.1 he' with rfl | he'
        · cases hkk
          exact fun h => cut_nul s (List.mem_of_mem_take h)
        · exact h2 e' (by simp [he']) kk hkk
      · show k + (loose (_ :: rest)).length ≤ _
        simp only [loose_cons]; omega
  | endMap => exact pop_safe E hm hn h
  | endArr => exact pop_safe E hm hn h

theorem feed_safe (E : Env A C X s0 N) : ∀ (l : List Ev) {c c' : Ctx ι} {b : Bool} {k : Nat}, Mid C X s0 k c → k + (loose c.stack).length + 7 * l.length ≤ N →
    feed A X l c = some (c', b) → Ext c.db.h c'.db.h ∧ ∃ k', LInv C X s0 k' c'.db []
  | [], c, c', b, k, hm, _, h => by
    rw [feed] at h; cases h
    exact ⟨Ext.refl _, k, hm.linv.nil⟩
  | ev :: l, c, c', b, k, hm, hn, h => by
    rw [List.length_cons] at hn
    rw [feed] at h
    cases hh : handle A X c ev with
    | none => rw [hh] at h; cases h
    | some y =>
      obtain ⟨c1, b1⟩ := y
      obtain ⟨g1, g2, g3⟩ := handle_safe E hm (by omega) hh
      rw [hh] at h
      cases b1 with
      | false => cases h; exact ⟨g1, g2⟩
      | true =>
        obtain ⟨k1, h1, h2⟩ := g3 rfl
        obtain ⟨f1, f2⟩ := feed_safe E l h1 (by omega) h
        exact ⟨g1.trans f1, f2⟩

end WG.Json
