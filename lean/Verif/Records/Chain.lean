import Verif.Records.Model
import Mathlib.Data.List.Nodup
import Mathlib.Data.Fintype.Card
import Mathlib.Data.List.Perm.Subperm
/-! # Linked chains: `Seg next w l m` - following `next` from `w` visits exactly `l` and arrives at `m`; `Chain` ends in 0. -/
namespace WG.Recs

def Seg (next : Word → Option Word) : Word → List Word → Word → Prop
  | w, [], m => w = m
  | w, a :: l, m => w = a ∧ a ≠ 0#64 ∧ ∃ n, next a = some n ∧ Seg next n l m

def Chain (next : Word → Option Word) (w : Word) (l : List Word) : Prop := Seg next w l 0#64

variable {next next' : Word → Option Word} {w m : Word} {l l' : List Word}

theorem Seg.append : ∀ {l l' : List Word} {w m : Word}, Seg next w (l ++ l') m ↔ ∃ k, Seg next w l k ∧ Seg next k l' m
  | [], l', w, m => by simp [Seg]
  | a :: l, l', w, m => by
    simp only [List.cons_append, Seg]
    constructor
    · rintro ⟨h1, h2, n, h3, h4⟩
      obtain ⟨k, h5, h6⟩ := Seg.append.1 h4
      exact ⟨k, ⟨h1, h2, n, h3, h5⟩, h6⟩
    · rintro ⟨k, ⟨h1, h2, n, h3, h5⟩, h6⟩
      exact ⟨h1, h2, n, h3, Seg.append.2 ⟨k, h5, h6⟩⟩

theorem Seg.congr : ∀ {l : List Word} {w m : Word}, (∀ x ∈ l, next x = next' x) → Seg next w l m → Seg next' w l m
  | [], _, _, _, h => h
  | a :: l, w, m, he, ⟨h1, h2, n, h3, h4⟩ =>
    ⟨h1, h2, n, by rw [← he a (by simp), h3], Seg.congr (fun x hx => he x (by simp [hx])) h4⟩

theorem Seg.mem_ne_zero : ∀ {l : List Word} {w m : Word}, Seg next w l m → ∀ x ∈ l, x ≠ 0#64
  | [], _, _, _, x, hx => by simp at hx
  | a :: l, w, m, ⟨_, h2, n, _, h4⟩, x, hx => by
    rcases List.mem_cons.1 hx with rfl | hx
    · exact h2
    · exact Seg.mem_ne_zero h4 x hx

theorem Seg.mem_some : ∀ {l : List Word} {w m : Word}, Seg next w l m → ∀ x ∈ l, ∃ n, next x = some n
  | [], _, _, _, x, hx => by simp at hx
  | a :: l, w, m, ⟨_, _, n, h3, h4⟩, x, hx => by
    rcases List.mem_cons.1 hx with rfl | hx
    · exact ⟨n, h3⟩
    · exact Seg.mem_some h4 x hx

theorem Chain.unique : ∀ {l l' : List Word} {w : Word}, Chain next w l → Chain next w l' → l = l'
  | [], [], _, _, _ => rfl
  | [], b :: l', w, h, h' => by simp only [Chain, Seg] at h h'; exact absurd (h'.1.symm.trans h) h'.2.1
  | a :: l, [], w, h, h' => by simp only [Chain, Seg] at h h'; exact absurd (h.1.symm.trans h') h.2.1
  | a :: l, b :: l', w, h, h' => by
    obtain ⟨h1, h2, n, h3, h4⟩ := h
    obtain ⟨g1, g2, n', g3, g4⟩ := h'
    have hab : a = b := h1.symm.trans g1
    subst hab
    rw [h3] at g3
    cases g3
    rw [Chain.unique (l := l) (l' := l') h4 g4]

theorem Chain.suffix {pre : List Word} {x : Word} {post : List Word} (h : Chain next w (pre ++ x :: post)) :
    Chain next x (x :: post) := by
  obtain ⟨k, _, h2⟩ := Seg.append.1 h
  obtain ⟨rfl, h3, h4⟩ := h2
  exact ⟨rfl, h3, h4⟩

/-- A chain that ends does not repeat. -/
theorem Chain.nodup (h : Chain next w l) : l.Nodup := by
  induction l generalizing w with
  | nil => exact List.nodup_nil
  | cons a l ih =>
    obtain ⟨h1, h2, n, h3, h4⟩ := id h
    refine List.nodup_cons.2 ⟨fun hm => ?_, ih h4⟩
    obtain ⟨p, q, rfl⟩ := List.append_of_mem hm
    have hs : Chain next a (a :: q) := Chain.suffix (pre := a :: p) (w := w) h
    have hw : Chain next a (a :: (p ++ a :: q)) := h1 ▸ h
    have := congrArg List.length (Chain.unique hs hw)
    simp only [List.length_cons, List.length_append] at this
    omega

theorem nodup_length_lt {l : List Word} (hn : l.Nodup) (h0 : 0#64 ∉ l) : l.length < 2 ^ 64 := by
  have h1 : (l.map BitVec.toFin).Nodup := hn.map (fun a b h => by cases a; cases b; simp_all)
  have h2 : ((0#64 :: l).map BitVec.toFin).Nodup :=
    (List.nodup_cons.2 ⟨h0, hn⟩).map (fun a b h => by cases a; cases b; simp_all)
  have h3 := h2.length_le_card
  simp only [List.length_map, List.length_cons, Fintype.card_fin] at h3
  omega

theorem Chain.length_lt (h : Chain next w l) : l.length < walkFuel :=
  nodup_length_lt h.nodup (fun h0 => Seg.mem_ne_zero h _ h0 rfl)

theorem Seg.snoc {y : Word} : Seg next w (l ++ [y]) m ↔ Seg next w l y ∧ y ≠ 0#64 ∧ next y = some m := by
  rw [Seg.append]
  constructor
  · rintro ⟨k, h1, rfl, h3, n, h4, rfl⟩; exact ⟨h1, h3, h4⟩
  · rintro ⟨h1, h2, h3⟩; exact ⟨y, h1, rfl, h2, m, h3, rfl⟩

/-- Removing `x` after `y`. -/
theorem Chain.remove_mid {pre post : List Word} {y x n : Word} (h : Chain next w (pre ++ y :: x :: post)) (hx : next x = some n)
    (hy : next' y = some n) (hc : ∀ z, z ≠ y → z ≠ x → next' z = next z) : Chain next' w (pre ++ y :: post) := by
  have hn := h.nodup
  have e : pre ++ y :: x :: post = (pre ++ [y]) ++ x :: post := by simp
  have e' : pre ++ y :: post = (pre ++ [y]) ++ post := by simp
  rw [e] at h
  obtain ⟨k, h1, h2⟩ := Seg.append.1 h
  obtain ⟨rfl, h3, n', h4, h5⟩ := h2
  rw [hx] at h4; cases h4
  obtain ⟨g1, g2, g3⟩ := Seg.snoc.1 h1
  simp only [List.nodup_append, List.nodup_cons, List.mem_cons] at hn
  rw [e']
  refine Seg.append.2 ⟨n, Seg.snoc.2 ⟨?_, g2, hy⟩, ?_⟩
  · refine Seg.congr (fun z hz => (hc z ?_ ?_).symm) g1
    · rintro rfl; exact hn.2.2 _ hz _ (Or.inl rfl) rfl
    · rintro rfl; exact hn.2.2 _ hz _ (Or.inr (Or.inl rfl)) rfl
  · refine Seg.congr (fun z hz => (hc z ?_ ?_).symm) h5
    · rintro rfl; exact hn.2.1.1 (Or.inr hz)
    · rintro rfl; exact hn.2.1.2.1 hz

theorem Chain.remove_head {post : List Word} {x n : Word} (h : Chain next w (x :: post)) (hx : next x = some n)
    (hc : ∀ z, z ≠ x → next' z = next z) : Chain next' n post := by
  have hn := h.nodup
  obtain ⟨_, _, n', h3, h4⟩ := h
  rw [hx] at h3; cases h3
  refine Seg.congr (fun z hz => (hc z ?_).symm) h4
  rintro rfl
  exact (List.nodup_cons.1 hn).1 hz

/-- Appending at the end. -/
theorem Chain.append_last {pre : List Word} {y q : Word} (h : Chain next w (pre ++ [y])) (hq : q ∉ pre ++ [y]) (hq0 : q ≠ 0#64)
    (hy : next' y = some q) (hqn : next' q = some 0#64) (hc : ∀ z, z ≠ y → z ≠ q → next' z = next z) :
    Chain next' w (pre ++ [y] ++ [q]) := by
  have hn := h.nodup
  obtain ⟨g1, g2, _⟩ := Seg.snoc.1 h
  refine Seg.snoc.2 ⟨Seg.snoc.2 ⟨?_, g2, hy⟩, hq0, hqn⟩
  refine Seg.congr (fun z hz => (hc z ?_ ?_).symm) g1
  · rintro rfl
    simp only [List.nodup_append, List.mem_singleton] at hn
    exact hn.2.2 _ hz _ rfl rfl
  · rintro rfl; exact hq (by simp [hz])

theorem Chain.nil_iff (h : Chain next w l) : w = 0#64 ↔ l = [] := by
  cases l with
  | nil => simp only [Chain, Seg] at h; simp [h]
  | cons a l => simp only [Chain, Seg] at h; simp [h.1, h.2.1]

end WG.Recs
