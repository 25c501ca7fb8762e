import Verif.JFile.Props
/-!
# Examples, and where the journal does not contain what was logged
-/
namespace WG.JFile.Demo
open Spec

/-- "j" -/
def base0 : Name := [106#8]
def fs0 : Fs := ⟨fun _ => none, fun _ => ⟨[], 0⟩, 0⟩
/-- A directory with an old journal and a full set of backups, written to at different times; number 6 is the oldest. -/
def fs1 : Fs :=
  ⟨fun n => if n = journalName base0 7 then some 10 else ((List.range 10).find? fun i => n = backupName base0 7 i),
    fun i => ⟨[BitVec.ofNat 8 i], if i = 6 then 50 else 100 + i⟩, 11⟩
def ok : Os := {}

theorem fs0_ok : Fs.Ok fs0 := ⟨fun _ _ _ h => absurd h (by simp [fs0]), fun _ _ h => absurd h (by simp [fs0])⟩

/-- Two handles, a dump in between, stop and start, a failed write. -/
def run1 : List (Os × Call) :=
  [(ok, .attach 0), (ok, .attach 1), (ok, .start), (ok, .log 0 [1#8, 2#8]), (ok, .log 1 [3#8]), (ok, .dump true true)]
def run2 : List (Os × Call) := [(ok, .log 1 [4#8]), (ok, .stop), (ok, .log 0 [5#8]), (ok, .start), (ok, .log 0 [6#8, 7#8]), (ok, .detach 1)]
def run3 : List (Os × Call) := [({ accept := 1 }, .log 0 [8#8, 9#8]), (ok, .log 0 [10#8]), (ok, .replay (journalName base0 7) true true), (ok, .log 0 [11#8])]

theorem plain_allowed (cs : List (Os × Call)) (h1 : ∀ p ∈ cs, p.1.reuse = none) (h2 : ∀ p ∈ cs, ∀ i, p.2 ≠ .imp (some i)) : ∀ s, AllAllowed base0 s cs := by
  induction cs with
  | nil => intro s; trivial
  | cons p cs ih =>
    intro s
    exact ⟨⟨h1 p List.mem_cons_self, fun i hi => absurd hi (h2 p List.mem_cons_self i)⟩,
      ih (fun q hq => h1 q (List.mem_cons_of_mem _ hq)) (fun q hq => h2 q (List.mem_cons_of_mem _ hq)) _⟩

theorem run_allowed : AllAllowed base0 (fresh 7 fs0) (run1 ++ run2 ++ run3) :=
  plain_allowed _ (by simp [run1, run2, run3, ok]) (by simp [run1, run2, run3]) _

/-- The hypotheses of `C61_session_partial` are met, and this is what it says. -/
example : (calls base0 (fresh 7 fs0) run1).1.active = true ∧ (calls base0 (fresh 7 fs0) run1).1.dirty = false ∧ (∀ d ∈ run2, Plain d.2) ∧
    (calls base0 (calls base0 (fresh 7 fs0) run1).1 run2).2 = [0, 0, 0, 0, 0, 0] ∧ logged true (run2.map Prod.snd) = [4#8, 6#8, 7#8] ∧
    content (calls base0 (fresh 7 fs0) (run1 ++ run2)).1.fs (journalName base0 7) = some [119#8, 103#8, 100#8, 98#8, 4#8, 6#8, 7#8] ∧
    content (calls base0 (fresh 7 fs0) (run1 ++ run2)).1.fs (backupName base0 7 0) = some [119#8, 103#8, 100#8, 98#8, 1#8, 2#8, 3#8] := by
  refine ⟨by decide +kernel, by decide +kernel, ?_, by decide +kernel, by decide +kernel, by decide +kernel, by decide +kernel⟩
  simp [run2, Plain]

/-- A failed write, a replay: the torn entry is in the backup. -/
example : (calls base0 (fresh 7 fs0) (run1 ++ run2 ++ run3)).2 = [0, 0, 0, 0, 0, 0, 0, 0, 0, 0, 0, 0, -5, -5, 0, 0] ∧
    content (calls base0 (fresh 7 fs0) (run1 ++ run2 ++ run3)).1.fs (journalName base0 7) = some [119#8, 103#8, 100#8, 98#8, 11#8] ∧
    content (calls base0 (fresh 7 fs0) (run1 ++ run2 ++ run3)).1.fs (backupName base0 7 1) = some [119#8, 103#8, 100#8, 98#8, 4#8, 6#8, 7#8, 8#8] := by
  decide +kernel

/-- The oldest of ten backups is overwritten; names. -/
example : content (call base0 ok (fresh 7 fs1) .start).1.fs (backupName base0 7 6) = some [10#8] ∧
    content (call base0 ok (fresh 7 fs1) .start).1.fs (backupName base0 7 9) = some [9#8] ∧
    content (call base0 ok (fresh 7 fs1) .start).1.fs (journalName base0 7) = some magic ∧
    journalName base0 (-12) = [106#8, 46#8, 45#8, 49#8, 50#8] ∧ backupName base0 7 3 = [106#8, 46#8, 55#8, 46#8, 51#8] := by
  decide +kernel

/-- The hypotheses of `C62_backups_partial` are met by a dump after logging. -/
example : Grows base0 7 (calls base0 (fresh 7 fs0) [(ok, .start)]).1.fs (call base0 ok (calls base0 (fresh 7 fs0) [(ok, .start)]).1 (.dump true true)).1.fs ∨
    Rotates base0 7 (calls base0 (fresh 7 fs0) [(ok, .start)]).1.fs (call base0 ok (calls base0 (fresh 7 fs0) [(ok, .start)]).1 (.dump true true)).1.fs := by
  refine C62_backups_partial 7 fs0 fs0_ok [(ok, .start)] (plain_allowed _ (by simp [ok]) (by simp) _) _ rfl ok (.dump true true)
    ⟨rfl, fun i hi => Call.noConfusion hi⟩ rfl (fun _ => rfl) (fun n t h => ?_) fun _ _ h => Call.noConfusion h
  have hd : (calls base0 (fresh 7 fs0) [(ok, .start)]).1.fs.dir = upd fs0.dir (journalName base0 7) (some 0) := rfl
  have hf : ((calls base0 (fresh 7 fs0) [(ok, .start)]).1.fs.files 0).mtime = 1 := rfl
  unfold mtime at h
  rw [hd] at h
  by_cases e : n = journalName base0 7
  · rw [e, upd_same, Option.map_some, hf] at h
    cases h
    decide
  · rw [upd_ne _ _ e] at h
    exact absurd h (by simp [fs0])

/-- C61 fails when a dump is imported by a process that has logged: the header of the dump brings back an old serial number, so that the
descriptor passes for a current one, and the entry `5` goes to the backup. All calls return 0. The dump is the one made by
the fifth call; its header has serial number 1. -/
theorem C61_import_counterexample :
    (calls base0 (fresh 7 fs0) [(ok, .attach 0), (ok, .start), (ok, .log 0 [1#8])]).1.serial = 1 ∧
    (calls base0 (fresh 7 fs0) [(ok, .attach 0), (ok, .start), (ok, .log 0 [1#8]), (ok, .dump true true), (ok, .log 0 [3#8]), (ok, .imp (some (7, 1))), (ok, .log 0 [5#8])]).2 =
      [0, 0, 0, 0, 0, 0, 0] ∧
    content (calls base0 (fresh 7 fs0) [(ok, .attach 0), (ok, .start), (ok, .log 0 [1#8]), (ok, .dump true true), (ok, .log 0 [3#8]), (ok, .imp (some (7, 1))), (ok, .log 0 [5#8])]).1.fs
      (journalName base0 7) = some magic ∧
    content (calls base0 (fresh 7 fs0) [(ok, .attach 0), (ok, .start), (ok, .log 0 [1#8]), (ok, .dump true true), (ok, .log 0 [3#8]), (ok, .imp (some (7, 1))), (ok, .log 0 [5#8])]).1.fs
      (backupName base0 7 1) = some (magic ++ [3#8, 5#8]) := by
  decide +kernel

/-- C61 fails after a failed write: the number of the closed descriptor stays in the handle; when another file has got this
number, the next entry is written there, and the call returns 0. -/
theorem C61_closed_counterexample :
    (calls base0 (fresh 7 fs1) [(ok, .attach 0), (ok, .start), ({ accept := 0 }, .log 0 [1#8]), ({ reuse := some 5 }, .log 0 [2#8])]).2 = [0, 0, -5, 0] ∧
    content (calls base0 (fresh 7 fs1) [(ok, .attach 0), (ok, .start), ({ accept := 0 }, .log 0 [1#8]), ({ reuse := some 5 }, .log 0 [2#8])]).1.fs (journalName base0 7) = some magic ∧
    content (calls base0 (fresh 7 fs1) [(ok, .attach 0), (ok, .start), ({ accept := 0 }, .log 0 [1#8]), ({ reuse := some 5 }, .log 0 [2#8])]).1.fs (backupName base0 7 5) =
      some [5#8, 2#8] := by
  decide +kernel

/-- A replay that fails, even with the result "database unmodified", leaves logging off: later calls return 0 and are not logged. -/
theorem C61_replay_counterexample :
    (calls base0 (fresh 7 fs0) [(ok, .attach 0), (ok, .start), (ok, .log 0 [1#8]), (ok, .replay (journalName base0 7) false true), (ok, .log 0 [2#8])]).2 = [0, 0, 0, -1, 0] ∧
    content (calls base0 (fresh 7 fs0) [(ok, .attach 0), (ok, .start), (ok, .log 0 [1#8]), (ok, .replay (journalName base0 7) false true), (ok, .log 0 [2#8])]).1.fs
      (journalName base0 7) = some (magic ++ [1#8]) := by
  decide +kernel

/-- A dump that fails starts a new journal all the same: no dump and not the journal, only a backup has the entry. -/
theorem C61_failed_dump_counterexample :
    (calls base0 (fresh 7 fs0) [(ok, .attach 0), (ok, .start), (ok, .log 0 [1#8]), (ok, .dump true false)]).2 = [0, 0, 0, -1] ∧
    content (calls base0 (fresh 7 fs0) [(ok, .attach 0), (ok, .start), (ok, .log 0 [1#8]), (ok, .dump true false)]).1.fs (journalName base0 7) = some magic := by
  decide +kernel

/-- C62 fails for dumps of other databases: the key in the header of the dump replaces that of the database, which from then on writes to the journal of
the other database; here the file of database 7 is made a backup by database 8. -/
theorem C62_other_key_counterexample :
    (calls base0 (fresh 8 fs1) [(ok, .start), (ok, .imp (some (7, 1)))]).2 = [0, 0] ∧
    content fs1 (journalName base0 7) = some [10#8] ∧
    content (calls base0 (fresh 8 fs1) [(ok, .start), (ok, .imp (some (7, 1)))]).1.fs (journalName base0 7) = some magic ∧
    content (calls base0 (fresh 8 fs1) [(ok, .start), (ok, .imp (some (7, 1)))]).1.fs (backupName base0 7 6) = some [10#8] := by
  decide +kernel

end WG.JFile.Demo
