import Verif.JFile.Rotate
import Verif.Journal.Props
import Verif.Csv.Props
/-!
# C61, C62: what the journal files contain
-/
namespace WG.JFile
open Spec

variable {base : Name}

/-- A sequence of calls: the abstract journal, and the files. -/
theorem calls_inv (cs : List (Os × Call)) : ∀ {s : St} {j : Journal}, Inv base s j → Fs.Ok s.fs → AllAllowed base s cs →
    ∃ j', Nexts j (cs.map Prod.snd) (calls base s cs).2 j' ∧ Inv base (calls base s cs).1 j' ∧ Fs.Ok (calls base s cs).1.fs := by
  induction cs with
  | nil => intro s j h ho _; exact ⟨j, .nil j, h, ho⟩
  | cons p cs ih =>
    obtain ⟨os, c⟩ := p
    intro s j h ho ha
    obtain ⟨j1, h1, h2⟩ := call_inv os h c ha.1
    obtain ⟨j2, h3, h4, h5⟩ := ih h2 (call_fs os h.fds ho c ha.1).1 ha.2
    exact ⟨j2, .cons h1 h3, h4, h5⟩

theorem fresh_inv (key : Int) (fs : Fs) : Inv base (fresh key fs) Journal.init :=
  ⟨rfl, rfl, fun h => by rcases h with h | h <;> exact Bool.noConfusion h, fun l hl => absurd hl (by simp [Journal.init]), fun h => Bool.noConfusion h,
    fun n h f hn => absurd hn (by simp [fresh])⟩

/-- C61: however many processes start, stop and write the journal, dump, import and replay, and whatever calls of the operating
system fail: the journal goes through the steps of the abstract machine, and the file contains the header and exactly what
has been logged. -/
theorem C61_journal_partial (key : Int) (fs : Fs) (ho : Fs.Ok fs) (cs : List (Os × Call)) (ha : AllAllowed base (fresh key fs) cs) :
    ∃ j, Nexts Journal.init (cs.map Prod.snd) (calls base (fresh key fs) cs).2 j ∧
      j.active = (calls base (fresh key fs) cs).1.active ∧ j.dirty = (calls base (fresh key fs) cs).1.dirty ∧
      (j.active = true ∨ j.dirty = true → j.log.isSome = true) ∧
      ∀ l, j.log = some l → content (calls base (fresh key fs) cs).1.fs (journalName base (calls base (fresh key fs) cs).1.key) = some (magic ++ l) := by
  obtain ⟨j, h1, h2, _⟩ := calls_inv cs (fresh_inv key fs) ho ha
  exact ⟨j, h1, h2.active, h2.dirty, fun h => h2.ex (by rw [← h2.active, ← h2.dirty]; exact h), h2.log⟩

theorem nexts_logged : ∀ {cs : List Call} {rs : List Int} {j j' : Journal} {l : List Byte}, Nexts j cs rs j' → (∀ c ∈ cs, Plain c) → (∀ r ∈ rs, r = 0) →
    j.log = some l → (j.dirty = false → l = []) → j'.log = some (l ++ logged j.active cs) := by
  intro cs rs j j' l h
  induction h generalizing l with
  | nil j => intro _ _ hl _; simp [logged, hl]
  | @cons j j1 j2 c cs r rs h1 h2 ih =>
    intro hp hr hl hd
    have hp' : ∀ c ∈ cs, Plain c := fun c hc => hp c (List.mem_cons_of_mem _ hc)
    have hr' : ∀ r ∈ rs, r = 0 := fun r hc => hr r (List.mem_cons_of_mem _ hc)
    have r0 : r = 0 := hr r List.mem_cons_self
    have p0 : Plain c := hp c List.mem_cons_self
    cases h1 with
    | attach n => rw [ih hp' hr' hl hd]; cases j.active <;> rfl
    | detach n => rw [ih hp' hr' hl hd]; cases j.active <;> rfl
    | startAgain => exact absurd r0 (by decide)
    | started hs =>
      cases hs with
      | new l' =>
        have e := hd rfl
        subst e
        have := ih (l := []) hp' hr' rfl fun _ => rfl
        rw [this]; rfl
      | goOn l' => rw [ih (l := l) hp' hr' hl hd]; rfl
    | notStarted hs hn => exact absurd r0 hn
    | stop hact => rw [ih (l := l) hp' hr' hl hd, hact]; rfl
    | stopAgain => exact absurd r0 (by decide)
    | off hact => rw [ih hp' hr' hl hd, hact]; rfl
    | log hact =>
      rename_i n b
      rw [ih (l := l ++ b) hp' hr' (by simp [hl]) fun h => Bool.noConfusion h]
      dsimp only
      rw [hact, List.append_assoc]
      rfl
    | torn k hact hn => exact absurd r0 hn
    | notLogged hact hn => exact absurd r0 hn
    | noDump => exact p0.elim
    | dumpOff => exact p0.elim
    | dump => exact p0.elim
    | dumpFailed => exact p0.elim
    | noImport => exact p0.elim
    | importOff => exact p0.elim
    | imported => exact p0.elim
    | importFailed => exact p0.elim
    | noReplay => exact p0.elim
    | replayFailed => exact p0.elim
    | replayOff => exact p0.elim
    | replayed => exact p0.elim
    | replayStart => exact p0.elim

theorem calls_append (cs ds : List (Os × Call)) : ∀ s : St, calls base s (cs ++ ds) =
    ((calls base (calls base s cs).1 ds).1, (calls base s cs).2 ++ (calls base (calls base s cs).1 ds).2) := by
  induction cs with
  | nil => intro s; rfl
  | cons p cs ih => obtain ⟨os, c⟩ := p; intro s; simp only [List.cons_append, calls, ih]

theorem allowed_append (cs ds : List (Os × Call)) : ∀ s : St, AllAllowed base s (cs ++ ds) →
    AllAllowed base s cs ∧ AllAllowed base (calls base s cs).1 ds := by
  induction cs with
  | nil => intro s h; exact ⟨trivial, h⟩
  | cons p cs ih => obtain ⟨os, c⟩ := p; intro s h; exact ⟨⟨h.1, (ih _ h.2).1⟩, (ih _ h.2).2⟩

/-- C61, one period: once logging is active and clean (after the first start, a dump, an import or a replay), and as long as the calls return 0, the
file contains the header followed by what the handles log, in the order of the calls and across stops and starts. If this
is a sequence of operations, then the journal is read as these (C39). -/
theorem C61_session_partial (key : Int) (fs : Fs) (ho : Fs.Ok fs) (cs ds : List (Os × Call)) (ha : AllAllowed base (fresh key fs) (cs ++ ds))
    (hact : (calls base (fresh key fs) cs).1.active = true) (hclean : (calls base (fresh key fs) cs).1.dirty = false)
    (hp : ∀ d ∈ ds, Plain d.2) (hr : ∀ r ∈ (calls base (calls base (fresh key fs) cs).1 ds).2, r = 0) :
    content (calls base (fresh key fs) (cs ++ ds)).1.fs (journalName base (calls base (fresh key fs) (cs ++ ds)).1.key) =
        some (magic ++ logged true (ds.map Prod.snd)) ∧
      ∀ ops : List LogOp, (∀ op ∈ ops, op.Plain) → logged true (ds.map Prod.snd) = journalOf ops →
        ∃ b, content (calls base (fresh key fs) (cs ++ ds)).1.fs (journalName base (calls base (fresh key fs) (cs ++ ds)).1.key) = some (magic ++ b) ∧
          readJournal b = (ops.map LogOp.entry, true) := by
  obtain ⟨ha1, ha2⟩ := allowed_append cs ds _ ha
  obtain ⟨j, h1, h2, h3⟩ := calls_inv cs (fresh_inv key fs) ho ha1
  obtain ⟨j', h4, h5, _⟩ := calls_inv ds h2 h3 ha2
  have hl := nexts_logged h4 (fun c hc => by obtain ⟨d, hd, rfl⟩ := List.mem_map.1 hc; exact hp d hd) hr (h2.clean hact hclean) fun _ => rfl
  rw [h2.active.trans hact, List.nil_append] at hl
  rw [calls_append]
  have := h5.log _ hl
  exact ⟨this, fun ops hops e => ⟨_, this, by rw [e]; exact C39_parse_partial ops hops⟩⟩

/-- C62: one call of any kind after any history: either all files are as they were and the journal has only got longer, or the
journal has become one of the ten backups; a backup is overwritten only if there are ten, and then it is the one not written to
for the longest time. -/
theorem C62_backups_partial (key : Int) (fs : Fs) (ho : Fs.Ok fs) (cs : List (Os × Call)) (ha : AllAllowed base (fresh key fs) cs)
    (s : St) (hs : s = (calls base (fresh key fs) cs).1) (os : Os) (c : Call) (hc : Allowed s os c)
    (hst : os.stat = true) (hsb : ∀ i, os.statBak i = true) (ht : ∀ n t, mtime s.fs n = some t → 0 < t)
    (hk : ∀ key serial, c = .imp (some (key, serial)) → key = s.key) :
    Grows base s.key s.fs (call base os s c).1.fs ∨ Rotates base s.key s.fs (call base os s c).1.fs := by
  obtain ⟨j, _, h2, h3⟩ := calls_inv cs (fresh_inv key fs) ho ha
  subst hs
  exact (call_fs os h2.fds h3 c hc).2 hst hsb ht hk

/-! ## Names -/

theorem digits_no_dot (n : Nat) : (46#8 : Byte) ∉ Json.digits n := fun h => by
  have := (Csv.digits_text n).1.2 _ h
  revert this
  unfold Csv.Spec.Digit
  decide

theorem fmtInt_no_dot (n : Int) : (46#8 : Byte) ∉ Json.fmtInt n := by
  unfold Json.fmtInt
  split_ifs
  · rw [List.mem_cons, not_or]; exact ⟨by decide, digits_no_dot _⟩
  · exact digits_no_dot _

theorem fmtInt_inj {a b : Int} (h : Json.fmtInt a = Json.fmtInt b) : a = b := by
  have hd : ∀ (n : Nat) (l : List Byte), Json.digits n = 45#8 :: l → False := fun n l e => by
    have := (Csv.digits_text n).1.2 45#8 (by rw [e]; exact List.mem_cons_self)
    revert this
    unfold Csv.Spec.Digit
    decide
  have hi : ∀ m n : Nat, Json.digits m = Json.digits n → m = n := fun m n e => by
    rw [← (Csv.digits_text m).2, ← (Csv.digits_text n).2, e]
  unfold Json.fmtInt at h
  split_ifs at h with h1 h2
  · have := hi _ _ (List.cons.inj h).2; omega
  · exact (hd _ _ h.symm).elim
  · exact (hd _ _ h).elim
  · have := hi _ _ h; omega

theorem digits_len1 {i : Nat} (h : i < 10) : (Json.digits i).length = 1 := by unfold Json.digits; rw [if_pos h]; rfl

theorem journalName_eq {key : Int} (h : -2 ^ 31 ≤ key ∧ key < 2 ^ 31) : journalName base key = base ++ 46#8 :: Json.fmtInt key := by
  have := Csv.fmtInt_length key h
  unfold journalName
  exact List.take_of_length_le (by rw [List.length_append, List.length_cons]; omega)

theorem backupName_eq {key : Int} (h : -2 ^ 31 ≤ key ∧ key < 2 ^ 31) {i : Nat} (hi : i < 10) :
    backupName base key i = base ++ 46#8 :: (Json.fmtInt key ++ 46#8 :: Json.digits i) := by
  have := Csv.fmtInt_length key h
  have h1 := digits_len1 hi
  unfold backupName
  rw [journalName_eq h, List.take_of_length_le (by simp only [List.length_append, List.length_cons]; omega)]
  simp

theorem split_dot {a b x y : List Byte} (ha : 46#8 ∉ a) (hb : 46#8 ∉ b) (h : a ++ 46#8 :: x = b ++ 46#8 :: y) : a = b ∧ x = y := by
  induction a generalizing b with
  | nil =>
    cases b with
    | nil => exact ⟨rfl, (List.cons.inj h).2⟩
    | cons c b => exact absurd (List.mem_cons.2 (Or.inl (List.cons.inj h).1)) hb
  | cons c a ih =>
    cases b with
    | nil => exact absurd (List.mem_cons.2 (Or.inl (List.cons.inj h).1.symm)) ha
    | cons d b =>
      obtain ⟨h1, h2⟩ := List.cons.inj h
      obtain ⟨h3, h4⟩ := ih (fun hx => ha (List.mem_cons_of_mem _ hx)) (fun hx => hb (List.mem_cons_of_mem _ hx)) h2
      exact ⟨by rw [h1, h3], h4⟩

/-- C62: the journals and backups of all databases have different names (keys are 32-bit integers). -/
theorem C62_names {k k' : Int} (h : -2 ^ 31 ≤ k ∧ k < 2 ^ 31) (h' : -2 ^ 31 ≤ k' ∧ k' < 2 ^ 31) {i i' : Nat} (hi : i < 10) (hi' : i' < 10) :
    (journalName base k = journalName base k' → k = k') ∧ backupName base k i ≠ journalName base k' ∧
      (backupName base k i = backupName base k' i' → k = k' ∧ i = i') := by
  rw [journalName_eq h, journalName_eq h', backupName_eq h hi, backupName_eq h' hi']
  refine ⟨fun e => fmtInt_inj (List.cons.inj (List.append_cancel_left e)).2, fun e => ?_, fun e => ?_⟩
  · have e1 := (List.cons.inj (List.append_cancel_left e)).2
    exact fmtInt_no_dot k' (by rw [← e1]; simp)
  · obtain ⟨h1, h2⟩ := split_dot (fmtInt_no_dot k) (fmtInt_no_dot k') (List.cons.inj (List.append_cancel_left e)).2
    exact ⟨fmtInt_inj h1, by rw [← (Csv.digits_text i).2, ← (Csv.digits_text i').2, h2]⟩

end WG.JFile
