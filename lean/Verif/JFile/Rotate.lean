import Verif.JFile.Lemmas
namespace WG.JFile
open Spec

variable {base : Name}

theorem Spec.Fs.Ok.rename {fs : Fs} (h : Fs.Ok fs) (a b : Name) : Fs.Ok (fs.rename a b) := by
  have key : ∀ n f, (fs.rename a b).dir n = some f → n ≠ a ∧ (n = b ∧ fs.dir a = some f ∨ n ≠ b ∧ fs.dir n = some f) := by
    intro n f hn
    unfold Fs.rename at hn
    dsimp only at hn
    by_cases e : n = a
    · rw [e, upd_same] at hn; exact absurd hn (by simp)
    · rw [upd_ne _ _ e] at hn
      by_cases e' : n = b
      · rw [e', upd_same] at hn; exact ⟨e, Or.inl ⟨e', hn⟩⟩
      · rw [upd_ne _ _ e'] at hn; exact ⟨e, Or.inr ⟨e', hn⟩⟩
  refine ⟨fun x y f hx hy => ?_, fun x f hx => ?_⟩
  · obtain ⟨h1, h2⟩ := key x f hx
    obtain ⟨h3, h4⟩ := key y f hy
    rcases h2 with ⟨e, h2⟩ | ⟨e, h2⟩ <;> rcases h4 with ⟨e', h4⟩ | ⟨e', h4⟩
    · rw [e, e']
    · exact absurd (h.one _ _ _ h4 h2) h3
    · exact absurd (h.one _ _ _ h2 h4) h1
    · exact h.one _ _ _ h2 h4
  · rcases (key x f hx).2 with ⟨_, h2⟩ | ⟨_, h2⟩ <;> exact h.used _ _ h2

/-- Only the content of files changes. -/
theorem Spec.Fs.Ok.files {fs fs' : Fs} (h : Fs.Ok fs) (hd : fs'.dir = fs.dir) (hn : fs'.next = fs.next) : Fs.Ok fs' :=
  ⟨fun a b f ha hb => h.one a b f (hd ▸ ha) (hd ▸ hb), fun a f ha => hn ▸ h.used a f (hd ▸ ha)⟩

theorem openFile_fs (os : Os) (s : St) (h : Fs.Ok s.fs) {s' : St} {f : Option Nat} (he : openFile base os true s = (s', f)) :
    Fs.Ok s'.fs ∧ s'.key = s.key ∧ s'.dirty = s.dirty ∧ (∀ x, f = some x → s'.fs.dir (journalName base s.key) = some x) ∧
      (∀ n, n ≠ journalName base s.key → content s'.fs n = content s.fs n) ∧
      (∀ c, content s.fs (journalName base s.key) = some c → content s'.fs (journalName base s.key) = some c) := by
  unfold openFile at he
  by_cases ho : os.opn = true
  · rw [if_pos ho] at he
    cases hd : s.fs.dir (journalName base s.key) with
    | some g =>
      rw [hd] at he
      obtain ⟨rfl, rfl⟩ := Prod.mk.inj he
      exact ⟨h, rfl, rfl, fun x hx => hx ▸ hd, fun _ _ => rfl, fun _ hc => hc⟩
    | none =>
      rw [hd] at he
      dsimp only at he
      rw [if_pos rfl] at he
      obtain ⟨rfl, rfl⟩ := Prod.mk.inj he
      refine ⟨⟨fun a b f ha hb => ?_, fun a f ha => ?_⟩, rfl, rfl, fun x hx => hx ▸ upd_same _ _ _, fun n hn => ?_, fun c hc => by simp [content, hd] at hc⟩
      · dsimp only at ha hb
        by_cases e : a = journalName base s.key
        · by_cases e' : b = journalName base s.key
          · rw [e, e']
          · rw [e, upd_same] at ha
            rw [upd_ne _ _ e'] at hb
            cases ha
            exact absurd (h.used _ _ hb) (Nat.lt_irrefl _)
        · rw [upd_ne _ _ e] at ha
          by_cases e' : b = journalName base s.key
          · rw [e', upd_same] at hb
            cases hb
            exact absurd (h.used _ _ ha) (Nat.lt_irrefl _)
          · rw [upd_ne _ _ e'] at hb
            exact h.one _ _ _ ha hb
      · dsimp only at ha ⊢
        by_cases e : a = journalName base s.key
        · rw [e, upd_same] at ha; cases ha; omega
        · rw [upd_ne _ _ e] at ha; have := h.used _ _ ha; omega
      · unfold content
        dsimp only
        rw [upd_ne _ _ hn]
        cases hx : s.fs.dir n with
        | none => rfl
        | some g =>
          have : g ≠ s.fs.next := Nat.ne_of_lt (h.used _ _ hx)
          simp [upd_ne _ _ this]
  · rw [if_neg ho] at he
    obtain ⟨rfl, rfl⟩ := Prod.mk.inj he
    exact ⟨h, rfl, rfl, fun x hx => absurd hx (by simp), fun _ _ => rfl, fun _ hc => hc⟩

/-- Writing to the current journal changes no other file. -/
theorem append_fs (os : Os) {fs : Fs} (h : Fs.Ok fs) {n : Name} {f : Nat} (hf : fs.dir n = some f) (buf : List Byte) :
    Fs.Ok (append os fs f buf) ∧ (∀ m, m ≠ n → content (append os fs f buf) m = content fs m) ∧
      ∀ c, content fs n = some c → content (append os fs f buf) n = some (c ++ buf.take os.accept) := by
  refine ⟨h.files rfl rfl, fun m hm => ?_, fun c hc => ?_⟩
  · unfold content append
    dsimp only
    cases hx : fs.dir m with
    | none => rfl
    | some g =>
      have : g ≠ f := fun e => hm (h.one _ _ _ (e ▸ hx) hf)
      simp [upd_ne _ _ this]
  · simp only [content, hf, Option.map_some, Option.some.injEq] at hc
    simp [content, append, hf, hc]

theorem truncate_fs (now : Nat) {fs : Fs} (h : Fs.Ok fs) {n : Name} {f : Nat} (hf : fs.dir n = some f) :
    Fs.Ok { fs with files := upd fs.files f ⟨[], now⟩ } ∧
      (∀ m, m ≠ n → content { fs with files := upd fs.files f ⟨[], now⟩ } m = content fs m) := by
  refine ⟨h.files rfl rfl, fun m hm => ?_⟩
  unfold content
  dsimp only
  cases hx : fs.dir m with
  | none => rfl
  | some g =>
    have : g ≠ f := fun e => hm (h.one _ _ _ (e ▸ hx) hf)
    simp [upd_ne _ _ this]

/-- The choice of the backup. -/
theorem pick_ok (os : Os) (hs : ∀ i, os.statBak i = true) (fs : Fs) (key : Int) (hp : ∀ n t, mtime fs n = some t → 0 < t) :
    ∀ (n i oldest idx : Nat), i + n = 10 → (∀ k < i, ∃ u, mtime fs (backupName base key k) = some u ∧ oldest ≤ u) →
      (i = 0 ∧ oldest = 0 ∨ idx < i ∧ 0 < oldest ∧ mtime fs (backupName base key idx) = some oldest) →
      pickBackup os fs base key n i oldest idx < 10 ∧
        (mtime fs (backupName base key (pickBackup os fs base key n i oldest idx)) = none ∨
          ∃ t, mtime fs (backupName base key (pickBackup os fs base key n i oldest idx)) = some t ∧
            ∀ k < 10, ∃ u, mtime fs (backupName base key k) = some u ∧ t ≤ u) := by
  intro n
  induction n with
  | zero =>
    intro i oldest idx hi hk ho
    rcases ho with ⟨h0, _⟩ | ⟨h1, h2, h3⟩
    · omega
    · unfold pickBackup
      refine ⟨by omega, Or.inr ⟨oldest, h3, fun k hk' => hk k (by omega)⟩⟩
  | succ n ih =>
    intro i oldest idx hi hk ho
    unfold pickBackup
    rw [if_neg (by rw [hs i]; simp)]
    cases hd : fs.dir (backupName base key i) with
    | none => exact ⟨by dsimp only; omega, Or.inl (by simp [mtime, hd])⟩
    | some f =>
      dsimp only
      have hm : mtime fs (backupName base key i) = some (fs.files f).mtime := by simp [mtime, hd]
      have hpos := hp _ _ hm
      by_cases hc : oldest = 0 ∨ oldest > (fs.files f).mtime
      · rw [if_pos hc]
        refine ih (i + 1) _ i (by omega) (fun k hk' => ?_) (Or.inr ⟨by omega, hpos, hm⟩)
        by_cases e : k = i
        · exact ⟨_, e ▸ hm, Nat.le_refl _⟩
        · obtain ⟨u, h1, h2⟩ := hk k (by omega)
          refine ⟨u, h1, ?_⟩
          rcases hc with hc | hc
          · rcases ho with ⟨h0, _⟩ | ⟨_, h0, _⟩ <;> omega
          · omega
      · rw [if_neg hc]
        rw [not_or] at hc
        rcases ho with ⟨h0, h0'⟩ | ⟨h1, h2, h3⟩
        · exact absurd h0' hc.1
        · refine ih (i + 1) oldest idx (by omega) (fun k hk' => ?_) (Or.inr ⟨by omega, h2, h3⟩)
          by_cases e : k = i
          · exact ⟨_, e ▸ hm, by omega⟩
          · exact hk k (by omega)

theorem rename_fs {fs : Fs} {a b : Name} (hab : b ≠ a) :
    content (fs.rename a b) b = content fs a ∧ (∀ n, n ≠ a → n ≠ b → content (fs.rename a b) n = content fs n) := by
  refine ⟨?_, fun n h1 h2 => ?_⟩
  · simp [content, Fs.rename, upd_ne _ _ hab]
  · simp [content, Fs.rename, upd_ne _ _ h1, upd_ne _ _ h2]

/-- What a start of logging does to the files. -/
theorem start_fs (os : Os) {s : St} (h : Fs.Ok s.fs) {s' : St} {r : Int} (he : startLogging base os s = (s', r)) :
    Fs.Ok s'.fs ∧ s'.key = s.key ∧
      (os.stat = true → (∀ i, os.statBak i = true) → (∀ n t, mtime s.fs n = some t → 0 < t) →
        Grows base s.key s.fs s'.fs ∨ Rotates base s.key s.fs s'.fs) := by
  unfold startLogging at he
  by_cases ha : s.active = true
  · rw [if_pos ha] at he
    obtain ⟨rfl, rfl⟩ := Prod.mk.inj he
    exact ⟨h, rfl, fun _ _ _ => Or.inl ⟨fun _ _ => rfl, fun c hc => ⟨[], by simpa using hc⟩⟩⟩
  · rw [if_neg ha] at he
    rcases ho : openJournal base os true s with ⟨t, f⟩
    rw [ho] at he
    -- opening
    have hopen : Fs.Ok t.fs ∧ t.key = s.key ∧ t.dirty = s.dirty ∧ (∀ x, f = some x → t.fs.dir (journalName base s.key) = some x) ∧
        (os.stat = true → (∀ i, os.statBak i = true) → (∀ n t, mtime s.fs n = some t → 0 < t) →
          ((∀ n, n ≠ journalName base s.key → content t.fs n = content s.fs n) ∧
            (∀ c, content s.fs (journalName base s.key) = some c → (s.dirty = true ∨ f = none) ∧ content t.fs (journalName base s.key) = some c)) ∨
          Rotates base s.key s.fs t.fs) := by
      unfold openJournal at ho
      by_cases hc : (true = true ∧ s.dirty = false ∧ os.stat = true ∧ (s.fs.dir (journalName base s.key)).isSome = true)
      · rw [if_pos hc] at ho
        unfold backupJournal at ho
        by_cases hr : os.rename = true
        · rw [if_pos hr] at ho
          dsimp only at ho
          obtain ⟨h1, h2, h3, h4, h5, _⟩ := openFile_fs os _ (h.rename _ _) ho
          refine ⟨h1, h2, h3, h4, fun _ hsb hp => Or.inr ?_⟩
          dsimp only at h5
          obtain ⟨hlt, hm⟩ := pick_ok (base := base) os hsb s.fs s.key hp 10 0 0 0 rfl (fun k hk => absurd hk (Nat.not_lt_zero k)) (Or.inl ⟨rfl, rfl⟩)
          have hab := backupName_ne (base := base) s.key (pickBackup os s.fs base s.key 10 0 0 0)
          obtain ⟨r1, r2⟩ := rename_fs (fs := s.fs) hab
          refine ⟨_, hlt, by rw [h5 _ hab, r1], fun n hn hn' => by rw [h5 n hn, r2 n hn hn'], fun t ht => ?_⟩
          rcases hm with hm | ⟨t', h1, h2⟩
          · rw [hm] at ht; exact absurd ht (by simp)
          · rw [h1] at ht; cases ht; exact h2
        · rw [if_neg hr] at ho
          obtain ⟨rfl, rfl⟩ := Prod.mk.inj ho
          exact ⟨h, rfl, rfl, fun x hx => absurd hx (by simp), fun _ _ _ => Or.inl ⟨fun _ _ => rfl, fun c hc => ⟨Or.inr rfl, hc⟩⟩⟩
      · rw [if_neg hc] at ho
        obtain ⟨h1, h2, h3, h4, h5, h6⟩ := openFile_fs os _ h ho
        refine ⟨h1, h2, h3, h4, fun hst _ _ => Or.inl ⟨h5, fun c hx => ⟨Or.inl ?_, h6 c hx⟩⟩⟩
        by_contra hd
        refine hc ⟨rfl, by simpa using hd, hst, ?_⟩
        unfold content at hx
        cases hy : s.fs.dir (journalName base s.key) with
        | none => rw [hy] at hx; exact absurd hx (by simp)
        | some _ => rfl
    obtain ⟨h1, h2, h3, h4, h5⟩ := hopen
    -- writing to the file opened
    have fin : ∀ fs' : Fs, (∀ n, n ≠ journalName base s.key → content fs' n = content t.fs n) →
        ((s.dirty = true ∨ f = none) → ∀ c, content t.fs (journalName base s.key) = some c → content fs' (journalName base s.key) = some c) →
        (os.stat = true → (∀ i, os.statBak i = true) → (∀ n t, mtime s.fs n = some t → 0 < t) →
          Grows base s.key s.fs fs' ∨ Rotates base s.key s.fs fs') := by
      intro fs' g1 g2 a b c
      rcases h5 a b c with ⟨h6, h7⟩ | ⟨i, hi, h6, h7, h8⟩
      · exact Or.inl ⟨fun n hn => (g1 n hn).trans (h6 n hn), fun c hc => ⟨[], by rw [List.append_nil]; exact g2 (h7 c hc).1 _ (h7 c hc).2⟩⟩
      · exact Or.inr ⟨i, hi, (g1 _ (backupName_ne s.key i)).trans h6, fun n hn hn' => (g1 n hn).trans (h7 n hn hn'), h8⟩
    cases f with
    | none =>
      obtain ⟨rfl, rfl⟩ := Prod.mk.inj he
      exact ⟨h1, h2, fin _ (fun _ _ => rfl) fun _ _ hc => hc⟩
    | some x =>
      dsimp only at he
      have hx := h4 x rfl
      cases hd : t.dirty with
      | true =>
        rw [if_neg (by rw [hd]; simp)] at he
        by_cases hck : checkJournal os (t.fs.files x) = true
        · rw [if_pos hck] at he
          obtain ⟨rfl, rfl⟩ := Prod.mk.inj he
          exact ⟨h1, h2, fin _ (fun _ _ => rfl) fun _ _ hc => hc⟩
        · rw [if_neg hck] at he
          obtain ⟨rfl, rfl⟩ := Prod.mk.inj he
          exact ⟨h1, h2, fin _ (fun _ _ => rfl) fun _ _ hc => hc⟩
      | false =>
        rw [if_pos hd] at he
        obtain ⟨t1, t2⟩ := truncate_fs os.now h1 hx
        obtain ⟨a1, a2, _⟩ := append_fs os t1 (n := journalName base s.key) (f := x) hx magic
        have hnd : ¬ (s.dirty = true ∨ some x = none) := by
          rw [← h3, hd]; simp
        have := fin (append os { t.fs with files := upd t.fs.files x ⟨[], os.now⟩ } x magic) (fun n hn => (a2 n hn).trans (t2 n hn)) fun hh => absurd hh hnd
        by_cases hacc : os.accept < 4
        · rw [if_pos hacc] at he
          obtain ⟨rfl, rfl⟩ := Prod.mk.inj he
          exact ⟨a1, h2, this⟩
        · rw [if_neg hacc] at he
          obtain ⟨rfl, rfl⟩ := Prod.mk.inj he
          exact ⟨a1, h2, this⟩

theorem grows_refl (base : Name) (key : Int) (fs : Fs) : Grows base key fs fs := ⟨fun _ _ => rfl, fun c hc => ⟨[], by simpa using hc⟩⟩

theorem log_fs (os : Os) (hr : os.reuse = none) {s : St} (hf : HInv base s) (h : Fs.Ok s.fs) (n : Nat) (buf : List Byte) :
    Fs.Ok (logCall base os s n buf).1.fs ∧ Grows base s.key s.fs (logCall base os s n buf).1.fs := by
  unfold logCall
  by_cases ha : s.active = true
  · rw [if_pos ha]
    cases hh : s.handles n with
    | none => exact ⟨h, grows_refl ..⟩
    | some hd =>
      dsimp only
      have hg := getFd_ok os s hd fun f e => hf n hd f hh e
      unfold writeLogBuffer
      dsimp only
      generalize getFd base os s hd = g at *
      cases hfd : g.fd with
      | none => exact ⟨h, grows_refl ..⟩
      | closed =>
        dsimp only
        rw [hr]
        exact ⟨h, grows_refl ..⟩
      | opn f =>
        dsimp only
        obtain ⟨a1, a2, a3⟩ := append_fs os h (hg f hfd).2 buf
        split_ifs
        · exact ⟨a1, a2, fun c hc => ⟨_, a3 c hc⟩⟩
        · exact ⟨a1, a2, fun c hc => ⟨_, a3 c hc⟩⟩
  · rw [if_neg ha]
    exact ⟨h, grows_refl ..⟩

/-- What a call does to the files. -/
theorem call_fs (os : Os) {s : St} (hf : HInv base s) (h : Fs.Ok s.fs) (c : Call) (hc : Allowed s os c) :
    Fs.Ok (call base os s c).1.fs ∧
      (os.stat = true → (∀ i, os.statBak i = true) → (∀ n t, mtime s.fs n = some t → 0 < t) →
        (∀ key serial, c = .imp (some (key, serial)) → key = s.key) →
        Grows base s.key s.fs (call base os s c).1.fs ∨ Rotates base s.key s.fs (call base os s c).1.fs) := by
  have triv : Fs.Ok s.fs ∧ (os.stat = true → (∀ i, os.statBak i = true) → (∀ n t, mtime s.fs n = some t → 0 < t) →
        (∀ key serial, c = .imp (some (key, serial)) → key = s.key) → Grows base s.key s.fs s.fs ∨ Rotates base s.key s.fs s.fs) :=
    ⟨h, fun _ _ _ _ => Or.inl (grows_refl ..)⟩
  cases c with
  | attach n => exact triv
  | detach n => exact triv
  | stop =>
    by_cases ha : s.active = true
    · simp only [call, stopLogging, if_pos ha]; exact triv
    · simp only [call, stopLogging, if_neg ha]; exact triv
  | start =>
    rcases hs : startLogging base os s with ⟨t, r⟩
    obtain ⟨h1, _, h3⟩ := start_fs os h hs
    simp only [call, hs]
    exact ⟨h1, fun a b c _ => h3 a b c⟩
  | log n buf =>
    obtain ⟨h1, h2⟩ := log_fs os hc.1 hf h n buf
    exact ⟨h1, fun _ _ _ _ => Or.inl h2⟩
  | dump o w =>
    simp only [call, dump]
    cases o with
    | false => exact triv
    | true =>
      rw [if_neg (by simp)]
      cases ha : s.active with
      | false => exact triv
      | true =>
        rw [if_pos rfl]
        simp only [stopLogging, ha, if_true]
        rcases hs : startLogging base os { s with active := false, dirty := false } with ⟨t, r⟩
        obtain ⟨h1, _, h3⟩ := start_fs os (s := { s with active := false, dirty := false }) h hs
        exact ⟨h1, fun a b c _ => h3 a b c⟩
  | imp i =>
    cases i with
    | none => exact triv
    | some i =>
      obtain ⟨key, serial⟩ := i
      simp only [call, importDump]
      by_cases ha : s.active = true
      · rw [if_pos ha]
        rcases hs : startLogging base os { s with key := key, serial := serial, dirty := false, active := false } with ⟨t, r⟩
        obtain ⟨h1, _, h3⟩ := start_fs os (s := { s with key := key, serial := serial, dirty := false, active := false }) h hs
        refine ⟨h1, fun a b c d => ?_⟩
        have e := d key serial rfl
        subst e
        exact h3 a b c
      · rw [if_neg ha]; exact triv
  | replay name table restored =>
    simp only [call, replayLog]
    cases hd : (if os.opn then s.fs.dir name else none) with
    | none => exact triv
    | some f =>
      dsimp only
      by_cases hck : checkJournal os (s.fs.files f) = false
      · rw [if_pos hck]; exact triv
      · rw [if_neg hck]
        cases table with
        | false => exact triv
        | true =>
          cases restored with
          | false => exact triv
          | true =>
            rw [if_neg (by simp), if_neg (by simp)]
            by_cases ha : s.active = true
            · rw [if_pos ha]
              rcases hs : startLogging base os { s with active := false, dirty := false } with ⟨t, r⟩
              obtain ⟨h1, _, h3⟩ := start_fs os (s := { s with active := false, dirty := false }) h hs
              exact ⟨h1, fun a b c _ => h3 a b c⟩
            · rw [if_neg ha]; exact triv

end WG.JFile
