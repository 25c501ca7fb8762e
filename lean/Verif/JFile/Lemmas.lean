import Verif.JFile.Spec
namespace WG.JFile
open Spec

@[simp] theorem upd_same {α β : Type} [DecidableEq α] (f : α → β) (a : α) (b : β) : upd f a b a = b := by simp [upd]
theorem upd_ne {α β : Type} [DecidableEq α] (f : α → β) {a x : α} (b : β) (h : x ≠ a) : upd f a b x = f x := by simp [upd, h]

variable {base : Name}

/-- Descriptors with the current serial number are of the current journal. -/
def HInv (base : Name) (s : St) : Prop :=
  ∀ n h f, s.handles n = some h → h.fd = .opn f → h.serial ≤ s.serial ∧ (h.serial = s.serial → s.fs.dir (journalName base s.key) = some f)

/-- The abstract journal describes the database. -/
structure Inv (base : Name) (s : St) (j : Journal) : Prop where
  active : j.active = s.active
  dirty : j.dirty = s.dirty
  ex : s.active = true ∨ s.dirty = true → j.log.isSome = true
  log : ∀ l, j.log = some l → content s.fs (journalName base s.key) = some (magic ++ l)
  clean : s.active = true → s.dirty = false → j.log = some []
  fds : HInv base s

theorem backupName_ne (key : Int) (i : Nat) : backupName base key i ≠ journalName base key := by
  unfold backupName
  have h : (journalName base key).length ≤ base.length + 20 := by unfold journalName; rw [List.length_take]; omega
  generalize journalName base key = t at *
  intro e
  have := congrArg List.length e
  have hd : (Json.digits i).length ≥ 1 := by unfold Json.digits; split <;> simp
  rw [List.length_take, List.length_append, List.length_cons] at this
  omega

/-- What opening the journal for a new period does. -/
theorem openCreate (os : Os) (s : St) (hf : HInv base s) {s' : St} {f : Option Nat} (he : openJournal base os true s = (s', f)) :
    s'.active = s.active ∧ s'.dirty = s.dirty ∧ s'.key = s.key ∧ s'.handles = s.handles ∧ HInv base s' ∧
      (∀ x, f = some x → s'.fs.dir (journalName base s'.key) = some x) ∧
      (s.dirty = true → ∀ c, content s.fs (journalName base s.key) = some c → content s'.fs (journalName base s'.key) = some c) := by
  have opn : ∀ t : St, HInv base t → ∀ {s' : St} {f : Option Nat}, openFile base os true t = (s', f) →
      s'.active = t.active ∧ s'.dirty = t.dirty ∧ s'.key = t.key ∧ s'.handles = t.handles ∧ HInv base s' ∧
      (∀ x, f = some x → s'.fs.dir (journalName base s'.key) = some x) ∧
      (∀ c, content t.fs (journalName base t.key) = some c → content s'.fs (journalName base s'.key) = some c) := by
    intro t ht s' f he
    unfold openFile at he
    by_cases ho : os.opn = true
    · rw [if_pos ho] at he
      cases hd : t.fs.dir (journalName base t.key) with
      | some g =>
        rw [hd] at he
        obtain ⟨rfl, rfl⟩ := Prod.mk.inj he
        exact ⟨rfl, rfl, rfl, rfl, ht, fun x hx => by rw [← hx]; exact hd, fun c hc => hc⟩
      | none =>
        rw [hd] at he
        dsimp only at he
        rw [if_pos rfl] at he
        obtain ⟨rfl, rfl⟩ := Prod.mk.inj he
        refine ⟨rfl, rfl, rfl, rfl, ?_, fun x hx => by rw [← hx]; exact upd_same _ _ _, fun c hc => by simp [content, hd] at hc⟩
        intro n h f hn hfd
        refine ⟨(ht n h f hn hfd).1, fun hs => ?_⟩
        rw [(ht n h f hn hfd).2 hs] at hd
        exact absurd hd (by simp)
    · rw [if_neg ho] at he
      obtain ⟨rfl, rfl⟩ := Prod.mk.inj he
      exact ⟨rfl, rfl, rfl, rfl, ht, fun x hx => absurd hx (by simp), fun c hc => hc⟩
  unfold openJournal at he
  by_cases hc : (true = true ∧ s.dirty = false ∧ os.stat = true ∧ (s.fs.dir (journalName base s.key)).isSome = true)
  · rw [if_pos hc] at he
    unfold backupJournal at he
    by_cases hr : os.rename = true
    · rw [if_pos hr] at he
      dsimp only at he
      obtain ⟨h1, h2, h3, h4, h5, h6, _⟩ := opn _ (by
        intro n h f hn hfd
        have := (hf n h f hn hfd).1
        refine ⟨Nat.le_succ_of_le this, fun hs => ?_⟩
        dsimp only at hs
        omega) he
      exact ⟨h1, h2, h3, h4, h5, h6, fun hd => by rw [hc.2.1] at hd; exact Bool.noConfusion hd⟩
    · rw [if_neg hr] at he
      obtain ⟨rfl, rfl⟩ := Prod.mk.inj he
      exact ⟨rfl, rfl, rfl, rfl, hf, fun x hx => absurd hx (by simp), fun _ c hc => hc⟩
  · rw [if_neg hc] at he
    obtain ⟨h1, h2, h3, h4, h5, h6, h7⟩ := opn _ hf he
    exact ⟨h1, h2, h3, h4, h5, h6, fun _ => h7⟩

theorem start_inv (os : Os) {s : St} {j : Journal} (h : Inv base s j) (ha : s.active = false) {s' : St} {r : Int}
    (he : startLogging base os s = (s', r)) : ∃ j', Start j (decide (r = 0)) j' ∧ Inv base s' j' := by
  unfold startLogging at he
  rw [if_neg (by simp [ha])] at he
  obtain ⟨ja, jd, jl⟩ := j
  have e1 : ja = false := h.active.trans ha
  have e2 : jd = s.dirty := h.dirty
  have hex := h.ex
  have hl := h.log
  dsimp only at hex hl
  subst e1 e2
  rcases ho : openJournal base os true s with ⟨t, f⟩
  obtain ⟨h1, h2, h3, h4, h5, h6, h7⟩ := openCreate os s h.fds ho
  rw [ho] at he
  have fail : Inv base t ⟨false, s.dirty, if s.dirty then jl else none⟩ := by
    refine ⟨by rw [h1, ha], by rw [h2], fun hx => ?_, fun l hl' => ?_, fun hx => by rw [h1, ha] at hx; exact Bool.noConfusion hx, h5⟩
    · rw [h1, h2, ha] at hx
      have hd : s.dirty = true := by rcases hx with hx | hx; exact Bool.noConfusion hx; exact hx
      rw [hd]; exact hex (Or.inr hd)
    · cases hd : s.dirty with
      | true => rw [hd] at hl'; exact h7 hd _ (hl _ hl')
      | false => rw [hd] at hl'; exact absurd hl' (by simp)
  have failS : Start ⟨false, s.dirty, jl⟩ false ⟨false, s.dirty, if s.dirty then jl else none⟩ := by
    cases s.dirty
    · exact .failedClean _
    · exact .failedDirty _
  cases f with
  | none =>
    obtain ⟨rfl, rfl⟩ := Prod.mk.inj he
    exact ⟨_, failS, fail⟩
  | some x =>
    dsimp only at he
    have hx := h6 x rfl
    cases hd : s.dirty with
    | false =>
      rw [if_pos (h2.trans hd)] at he
      rw [hd] at fail failS
      by_cases hacc : os.accept < 4
      · rw [if_pos hacc] at he
        obtain ⟨rfl, rfl⟩ := Prod.mk.inj he
        exact ⟨_, .failedClean _, ⟨fail.active, fail.dirty, fail.ex, fun l hl' => absurd hl' (by simp), fail.clean, fail.fds⟩⟩
      · rw [if_neg hacc] at he
        obtain ⟨rfl, rfl⟩ := Prod.mk.inj he
        refine ⟨_, .new _, rfl, (h2.trans hd).symm, fun _ => rfl, fun l hl' => ?_, fun _ _ => rfl, h5⟩
        cases hl'
        have : magic.take os.accept = magic := List.take_of_length_le (by simp [magic]; omega)
        simp [content, append, hx, this]
    | true =>
      rw [if_neg (by rw [h2, hd]; exact Bool.noConfusion)] at he
      rw [hd] at fail failS
      by_cases hck : checkJournal os (t.fs.files x) = true
      · rw [if_pos hck] at he
        obtain ⟨rfl, rfl⟩ := Prod.mk.inj he
        refine ⟨_, .goOn _, rfl, fail.dirty, fun _ => hex (Or.inr hd), fun l hl' => fail.log l hl', fun _ hx => ?_, h5⟩
        dsimp only at hx
        rw [h2, hd] at hx
        exact Bool.noConfusion hx
      · rw [if_neg hck] at he
        obtain ⟨rfl, rfl⟩ := Prod.mk.inj he
        exact ⟨_, .failedDirty _, fail⟩

/-- Opening without creating changes nothing. -/
theorem openRead (os : Os) (s : St) : openJournal base os false s = (s, if os.opn then s.fs.dir (journalName base s.key) else none) := by
  unfold openJournal
  rw [if_neg (by simp)]
  unfold openFile
  split
  · split
    · rename_i h; rw [h]
    · rename_i h; rw [h, if_neg (by simp)]
  · rfl

/-- The descriptor used for writing. -/
theorem getFd_ok (os : Os) (s : St) (h : Handle) (hf : ∀ f, h.fd = .opn f → h.serial ≤ s.serial ∧ (h.serial = s.serial → s.fs.dir (journalName base s.key) = some f)) :
    ∀ f, (getFd base os s h).fd = .opn f → (getFd base os s h).serial = s.serial ∧ s.fs.dir (journalName base s.key) = some f := by
  intro f
  unfold getFd
  rw [openRead]
  dsimp only
  by_cases hc : h.fd ≠ .none ∧ h.serial ≠ s.serial
  · rw [if_pos hc, if_pos rfl]
    cases hd : (if os.opn then s.fs.dir (journalName base s.key) else none) with
    | none => intro e; exact Fd.noConfusion e
    | some g =>
      dsimp only
      split_ifs
      · intro e
        cases e
        refine ⟨rfl, ?_⟩
        split_ifs at hd
        exact hd
      · intro e; exact absurd e (by simp)
  · rw [if_neg hc]
    by_cases hn : h.fd = .none
    · rw [if_pos hn]
      cases hd : (if os.opn then s.fs.dir (journalName base s.key) else none) with
      | none => intro e; dsimp only at e; rw [hn] at e; exact Fd.noConfusion e
      | some g =>
        dsimp only
        split_ifs
        · intro e
          cases e
          refine ⟨rfl, ?_⟩
          split_ifs at hd
          exact hd
        · intro e; rw [hn] at e; exact absurd e (by simp)
    · rw [if_neg hn]
      have hs : h.serial = s.serial := by by_contra hx; exact hc ⟨hn, hx⟩
      exact fun e => ⟨hs, (hf f e).2 hs⟩

theorem neg1 : (-1 : Int) ≠ 0 := by decide
theorem neg2 : (-2 : Int) ≠ 0 := by decide
theorem neg5 : (-5 : Int) ≠ 0 := by decide

theorem log_inv (os : Os) (hr : os.reuse = none) {s : St} {j : Journal} (h : Inv base s j) (n : Nat) (buf : List Byte) :
    ∃ j', Next j (.log n buf) (logCall base os s n buf).2 j' ∧ Inv base (logCall base os s n buf).1 j' := by
  unfold logCall
  cases ha : s.active with
  | false => exact ⟨j, .off (h.active.trans ha), by rw [if_neg (by simp)]; exact h⟩
  | true =>
    rw [if_pos rfl]
    have hja := h.active.trans ha
    cases hh : s.handles n with
    | none => exact ⟨j, .notLogged hja neg1, h⟩
    | some hd =>
      dsimp only
      have hg := getFd_ok os s hd fun f e => h.fds n hd f hh e
      unfold writeLogBuffer
      dsimp only
      generalize hgd : getFd base os s hd = g at *
      -- descriptors after the handle was updated
      have fds : ∀ k : Handle, (∀ f, k.fd = .opn f → k.serial = s.serial ∧ s.fs.dir (journalName base s.key) = some f) →
          ∀ m h' f, upd s.handles n (some k) m = some h' → h'.fd = .opn f →
            h'.serial ≤ s.serial ∧ (h'.serial = s.serial → s.fs.dir (journalName base s.key) = some f) := by
        intro k hk m h' f hm hf
        by_cases e : m = n
        · subst e
          rw [upd_same] at hm
          cases hm
          exact ⟨(hk f hf).1.le, fun _ => (hk f hf).2⟩
        · rw [upd_ne _ _ e] at hm
          exact h.fds m h' f hm hf
      cases hfd : g.fd with
      | none =>
        exact ⟨j, .notLogged hja neg1, h.active, h.dirty, h.ex, h.log, h.clean, fds g hg⟩
      | closed =>
        dsimp only
        rw [hr]
        obtain ⟨l, hl⟩ := Option.isSome_iff_exists.1 (h.ex (Or.inl ha))
        refine ⟨_, .torn 0 hja neg5, h.active, rfl, fun _ => by rw [hl]; rfl, fun l' hl' => ?_, fun _ hx => Bool.noConfusion hx, fds g hg⟩
        refine h.log _ ?_
        rw [hl] at hl' ⊢
        simpa using hl'
      | opn f =>
        obtain ⟨hs, hdir⟩ := hg f hfd
        dsimp only
        obtain ⟨l, hl⟩ := Option.isSome_iff_exists.1 (h.ex (Or.inl ha))
        have hc := h.log l hl
        have hc' : content (append os s.fs f buf) (journalName base s.key) = some (magic ++ (l ++ buf.take os.accept)) := by
          simp only [content, hdir, Option.map_some, Option.some.injEq] at hc
          simp [content, append, hdir, hc]
        by_cases hacc : os.accept < buf.length
        · rw [if_pos hacc]
          refine ⟨_, .torn os.accept hja neg5, h.active, rfl, fun _ => by rw [hl]; rfl, fun l' hl' => ?_, fun _ hx => Bool.noConfusion hx, ?_⟩
          · rw [hl] at hl'
            cases hl'
            exact hc'
          · intro m h' f' hm hf'
            by_cases e : m = n
            · subst e
              dsimp only at hm
              rw [upd_same] at hm
              cases hm
              exact Fd.noConfusion hf'
            · dsimp only at hm
              rw [upd_ne _ _ e, upd_ne _ _ e] at hm
              exact h.fds m h' f' hm hf'
        · rw [if_neg hacc]
          rw [List.take_of_length_le (by omega)] at hc'
          refine ⟨_, .log hja, h.active, rfl, fun _ => by rw [hl]; rfl, fun l' hl' => ?_, fun _ hx => Bool.noConfusion hx, fds g hg⟩
          rw [hl] at hl'
          cases hl'
          exact hc'

theorem call_inv (os : Os) {s : St} {j : Journal} (h : Inv base s j) (c : Call) (hc : Allowed s os c) :
    ∃ j', Next j c (call base os s c).2 j' ∧ Inv base (call base os s c).1 j' := by
  obtain ⟨hr, hi⟩ := hc
  -- logging switched off and the state marked clean
  have off : Inv base { s with active := false, dirty := false } { j with active := false, dirty := false } :=
    ⟨rfl, rfl, fun hx => by rcases hx with hx | hx <;> exact Bool.noConfusion hx, h.log, fun hx => Bool.noConfusion hx, h.fds⟩
  cases c with
  | attach n =>
    refine ⟨j, .attach j n, h.active, h.dirty, h.ex, h.log, h.clean, ?_⟩
    intro m h' f hm hf
    by_cases e : m = n
    · subst e
      simp only [call, upd_same] at hm
      cases hm
      exact Fd.noConfusion hf
    · simp only [call, upd_ne _ _ e] at hm
      exact h.fds m h' f hm hf
  | detach n =>
    refine ⟨j, .detach j n, h.active, h.dirty, h.ex, h.log, h.clean, ?_⟩
    intro m h' f hm hf
    by_cases e : m = n
    · subst e
      simp only [call, upd_same] at hm
      exact absurd hm (by simp)
    · simp only [call, upd_ne _ _ e] at hm
      exact h.fds m h' f hm hf
  | start =>
    unfold call
    cases ha : s.active with
    | true =>
      refine ⟨j, ?_, ?_⟩
      · simp only [startLogging, ha, if_true]
        exact .startAgain (h.active.trans ha)
      · simp only [startLogging, ha, if_true]
        exact h
    | false =>
      rcases hs : startLogging base os s with ⟨t, r⟩
      obtain ⟨j', h1, h2⟩ := start_inv os h ha hs
      by_cases e : r = 0
      · subst e
        exact ⟨j', .started (by simpa using h1), h2⟩
      · exact ⟨j', .notStarted (by simpa [e] using h1) e, h2⟩
  | stop =>
    unfold call stopLogging
    cases ha : s.active with
    | true =>
      refine ⟨_, .stop (h.active.trans ha), rfl, h.dirty, fun hx => ?_, h.log, fun hx => Bool.noConfusion hx, h.fds⟩
      exact h.ex (Or.inl ha)
    | false => exact ⟨j, .stopAgain (h.active.trans ha), h⟩
  | log n buf => exact log_inv os hr h n buf
  | dump o w =>
    show ∃ j', Next j (.dump o w) (dump base os s o w).2 j' ∧ Inv base (dump base os s o w).1 j'
    unfold dump
    cases o with
    | false => exact ⟨j, .noDump j _ _, h⟩
    | true =>
      rw [if_neg (by simp)]
      dsimp only
      cases ha : s.active with
      | false => exact ⟨j, .dumpOff (h.active.trans ha), by simpa using h⟩
      | true =>
        rw [if_pos rfl]
        simp only [stopLogging, ha, if_true]
        rcases hs : startLogging base os { s with active := false, dirty := false } with ⟨t, r⟩
        obtain ⟨j', h1, h2⟩ := start_inv os off rfl hs
        by_cases e : r = 0
        · subst e
          exact ⟨j', .dump (h.active.trans ha) (by simpa using h1), h2⟩
        · rw [if_neg e]
          exact ⟨j', .dumpFailed (h.active.trans ha) (by simpa [e] using h1), h2⟩
  | imp i =>
    show ∃ j', Next j (.imp i) (importDump base os s i).2 j' ∧ Inv base (importDump base os s i).1 j'
    unfold importDump
    cases i with
    | none => exact ⟨j, .noImport j _, h⟩
    | some i =>
      obtain ⟨key, serial⟩ := i
      have nofd := hi _ rfl
      dsimp only
      have off' : Inv base { s with key := key, serial := serial, dirty := false, active := false } { j with active := false, dirty := false, log := none } :=
        ⟨rfl, rfl, fun hx => by rcases hx with hx | hx <;> exact Bool.noConfusion hx, fun l hl => absurd hl (by simp), fun hx => Bool.noConfusion hx,
          fun n h' f hn hf => by rw [nofd n h' hn] at hf; exact Fd.noConfusion hf⟩
      cases ha : s.active with
      | false =>
        refine ⟨_, .importOff (h.active.trans ha), ?_⟩
        rw [if_neg (by simp)]
        have := off'
        rwa [show ({ j with active := false, dirty := false, log := none } : Journal) = { j with dirty := false, log := none } by
          rw [h.active.trans ha]] at this
      | true =>
        rw [if_pos rfl]
        rcases hs : startLogging base os { s with key := key, serial := serial, dirty := false, active := false } with ⟨t, r⟩
        obtain ⟨j', h1, h2⟩ := start_inv os off' rfl hs
        have hst : ∀ b j', Start { j with active := false, dirty := false, log := none } b j' → Start { j with active := false, dirty := false } b j' := by
          intro b j' hx
          cases hx with
          | new l => exact .new _
          | failedClean l => exact .failedClean _
        by_cases e : r = 0
        · subst e
          exact ⟨j', .imported (h.active.trans ha) (by simpa using hst _ _ h1), h2⟩
        · dsimp only
          rw [if_neg e]
          exact ⟨j', .importFailed (h.active.trans ha) (by simpa [e] using hst _ _ h1), h2⟩
  | replay name table restored =>
    show ∃ j', Next j (.replay name table restored) (replayLog base os s name table restored).2 j' ∧ Inv base (replayLog base os s name table restored).1 j'
    unfold replayLog
    cases hd : (if os.opn then s.fs.dir name else none) with
    | none => exact ⟨j, .noReplay j _ _ _, h⟩
    | some f =>
      dsimp only
      by_cases hck : checkJournal os (s.fs.files f) = false
      · rw [if_pos hck]; exact ⟨j, .noReplay j _ _ _, h⟩
      · rw [if_neg hck]
        have off1 : Inv base { s with active := false } { j with active := false } :=
          ⟨rfl, h.dirty, fun hx => h.ex (by rcases hx with hx | hx; exact Bool.noConfusion hx; exact Or.inr hx), h.log, fun hx => Bool.noConfusion hx, h.fds⟩
        cases table with
        | false => exact ⟨_, .replayFailed neg1, off1⟩
        | true =>
          cases restored with
          | false => exact ⟨_, .replayFailed neg2, off1⟩
          | true =>
            rw [if_neg (by simp), if_neg (by simp)]
            cases ha : s.active with
            | false =>
              refine ⟨_, .replayOff (h.active.trans ha), ?_⟩
              rw [if_neg (by simp)]
              have := off
              rwa [show ({ j with active := false, dirty := false } : Journal) = { j with dirty := false } by rw [h.active.trans ha]] at this
            | true =>
              rw [if_pos rfl]
              rcases hs : startLogging base os { s with active := false, dirty := false } with ⟨t, r⟩
              obtain ⟨j', h1, h2⟩ := start_inv os off rfl hs
              by_cases e : r = 0
              · subst e
                exact ⟨j', .replayed (h.active.trans ha) (by simpa using h1), h2⟩
              · rw [if_neg e]
                exact ⟨j', .replayStart (h.active.trans ha) (by simpa [e] using h1), h2⟩

end WG.JFile
