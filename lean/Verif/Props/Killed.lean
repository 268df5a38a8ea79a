import Verif.Props.BackupRuns
/-!
# Property C45 (killed backups) and C60 (cut exports)

`Killed` (`Spec/History.lean`) lists the states a killed backup leaves behind.  That a chunk file appears under its final
name only with its complete content is proved for the file operations in `Props/Crash.lean`.
-/
namespace Verif.Backup
open Verif Verif.Chunked Verif.Spec Verif.Rbd Verif.Repo Verif.Files Verif.Diff

/-- **C45** After any history, with any number of backups killed anywhere: every chunk file holds complete
content, namely content whose hash is the file's name. -/
theorem C45_chunks_complete_partial (env : Env) (s0 s : Sys) (h0 : Initial s0) (hs : Steps env s0 s)
    (hcoll : CollFree env.H s.src.w.log) (h : Hash) (x : Option Bytes) (hx : s.src.w.chunks.get? h = some x) :
    ∃ d, x = some d ∧ env.H d = h := by
  have hg := (Good.initial (env := env) h0).steps hcoll hs (fun _ h => h)
  obtain ⟨d, h1, h2, _⟩ := hg.disk.wok.good h x hx
  exact ⟨d, h1, h2⟩

/-- **C45** Complete revisions survive a killed backup: afterwards they restore to the same bytes, and their metadata is
unchanged except possibly for being distrusted. -/
theorem C45_complete_survive_partial (env : Env) (s0 s s' : Sys) (h0 : Initial s0) (hs : Steps env s0 s) (af : Bool) (o : Rbd)
    (uuid : String) (ts : Int) (tags : Finset String) (hu : Fresh s uuid)
    (hf : Faithful o s.ceph.snaps uuid s.ceph.image) (hk : Killed env af o uuid ts tags s s')
    (hcoll : CollFree env.H s'.src.w.log) (r : Rev) (hr : onDisk s.src.repo.files r.uuid = some r) (hl : r.server = "")
    (hc : r.clean = true) :
    (onDisk s'.src.repo.files r.uuid = some r ∨ onDisk s'.src.repo.files r.uuid = some { r with trust := .distrusted }) ∧
    ∃ c, (∀ target, restore env s.connect.src.w r target = (.ok (), some c)) ∧
      ∀ target, restore env s'.connect.src.w r target = (.ok (), some c) := by
  have hstep : Step env s s' := .killed s s' af o uuid ts tags hu hf hk
  have hlog := hstep.log
  have hcoll0 : CollFree env.H s.src.w.log := fun a ha b hb => hcoll a (hlog ha) b (hlog hb)
  obtain ⟨c, c1, c2, _⟩ := C13_restores_snapshot env s0 s h0 hs hcoll0 r hr hl hc
  have hne : r.uuid ≠ uuid := by
    intro he
    have := hu.file
    rw [← he] at this
    rw [onDisk_eq_some] at hr
    simp [Dict.has, hr] at this
  have hg := (Good.initial (env := env) h0).steps hcoll0 hs (fun _ h => h)
  have hmem : r ∈ s.connect.src.repo.history := (Repo.scan_mem hg.disk.named r).2 hr
  -- cleaning does not touch it
  have hclean : ∀ (l : List Rev) (repo : Repo), (∀ x ∈ l, x ∈ s.connect.src.repo.history) →
      onDisk (l.foldl (fun s r => if r.clean then s else s.remove r) repo).files r.uuid = onDisk repo.files r.uuid := by
    intro l
    induction l with
    | nil => intro repo _; rfl
    | cons x l ih =>
      intro repo hx
      rw [List.foldl_cons, ih _ (fun y hy => hx y (by simp [hy]))]
      split
      · rfl
      · rename_i hxc
        refine remove_files_ne ?_ false
        intro he
        have := eq_of_uuid (Repo.scan_nodup _) hmem (hx x (by simp)) he
        rw [← this] at hxc; exact hxc hc
  have hprep : onDisk (s.prepared uuid ts tags).src.repo.files r.uuid = some r := by
    show onDisk (s.connect.src.repo.clean.files.set (newRev uuid ts tags).uuid ⟨false, newRev uuid ts tags⟩) _ = _
    rw [onDisk_set, if_neg (show r.uuid ≠ (newRev uuid ts tags).uuid from hne)]
    rw [← hr]
    exact hclean _ _ (fun x hx => List.mem_of_mem_filter hx)
  have hprepmem : r ∈ (s.prepared uuid ts tags).src.repo.history :=
    (Repo.scan_mem (launch_named (s := s.connect) hg.disk.named uuid ts tags) r).2 hprep
  have hfiles : onDisk s'.src.repo.files r.uuid = some r ∨
      onDisk s'.src.repo.files r.uuid = some { r with trust := .distrusted } := by
    cases hk with
    | cleaning k =>
      left
      rw [← hr]
      exact hclean _ _ (fun x hx => List.mem_of_mem_filter (List.mem_of_mem_take hx))
    | created => exact .inl hprep
    | writing parent v hp hv => exact .inl hprep
    | leaving o' k =>
      have hsub : ((s.prepared uuid ts tags).src.repo.localHistory.take k).Sublist (s.prepared uuid ts tags).src.repo.history :=
        (List.take_sublist _ _).trans List.filter_sublist
      have hd := distrust_files ((s.prepared uuid ts tags).src.repo.localHistory.take k) (s.prepared uuid ts tags).src.repo
        (fun x hx => (mem_localHistory.1 (List.mem_of_mem_take hx)).2)
        ((Repo.scan_nodup _).sublist (hsub.map _)) r.uuid
      show onDisk ((s.prepared uuid ts tags).src.repo.distrust _).2.files r.uuid = _ ∨
        onDisk ((s.prepared uuid ts tags).src.repo.distrust _).2.files r.uuid = _
      rw [hd]
      cases hfd : ((s.prepared uuid ts tags).src.repo.localHistory.take k).find? (fun x => decide (x.uuid = r.uuid)) with
      | none => exact .inl hprep
      | some x =>
        right
        have e1 := List.find?_some hfd
        simp only [decide_eq_true_eq] at e1
        have e2 := hsub.subset (List.mem_of_find?_eq_some hfd)
        have := eq_of_uuid (Repo.scan_nodup _) e2 hprepmem e1
        rw [this]
    | completed o' hv =>
      left
      show onDisk ((s.prepared uuid ts tags).src.repo.store _).files _ = _
      rw [store_files, if_neg (show r.uuid ≠ (finished o (newRev uuid ts tags)).uuid from hne)]
      exact hprep
  refine ⟨hfiles, c, c2, ?_⟩
  have htk : s'.ceph.taken.get? r.uuid = some c := by
    rw [C13_record_stable env s s' hstep r.uuid (fun hfr => ?_)]
    · exact c1
    · have := hfr.file
      rw [onDisk_eq_some] at hr
      simp [Dict.has, hr] at this
  have hs' : Steps env s0 s' := .cons hs hstep
  rcases hfiles with hx | hx
  · obtain ⟨c', d1, d2, _⟩ := C13_restores_snapshot env s0 s' h0 hs' hcoll r hx hl hc
    rw [htk] at d1; cases d1; exact d2
  · obtain ⟨c', d1, d2, _⟩ := C13_restores_snapshot env s0 s' h0 hs' hcoll { r with trust := .distrusted } hx hl hc
    rw [htk] at d1; cases d1; exact d2

/-- **C45** The next backup by a process that reads the directory is correct, however many backups were killed
before. (This is C13 for a history that ends in a killed backup.) -/
theorem C45_next_backup_partial (env : Env) (s0 s s' : Sys) (h0 : Initial s0) (hs : Steps env s0 s) (af : Bool) (o : Rbd)
    (uuid : String) (ts : Int) (tags : Finset String) (hu : Fresh s uuid)
    (hf : Faithful o s.ceph.snaps uuid s.ceph.image) (hk : Killed env af o uuid ts tags s s')
    (af' : Bool) (o' : Rbd) (uuid' : String) (ts' : Int) (tags' : Finset String) (hu' : Fresh s' uuid')
    (hw : Works o' s'.ceph.snaps uuid' s'.ceph.image env.cs)
    (hcoll : CollFree env.H (runBackup env af' o' uuid' ts' tags' s'.connect).2.src.w.log) :
    (runBackup env af' o' uuid' ts' tags' s'.connect).1 = 0 ∧
    ∃ x, onDisk (runBackup env af' o' uuid' ts' tags' s'.connect).2.src.repo.files uuid' = some x ∧ x.clean = true ∧
      ∀ target, restore env (runBackup env af' o' uuid' ts' tags' s'.connect).2.connect.src.w x target =
        (.ok (), some s'.ceph.image) :=
  C13_backup_succeeds env s0 s' h0 (.cons hs (.killed s s' af o uuid ts tags hu hf hk)) af' o' uuid' ts' tags' hu' hw hcoll

/-! ### The full property is false

The daemon reads the directory, then waits for the next backup time, then removes the incomplete revisions *it knows of*
(`daemon/scheduler.py:221`, `288`).  If meanwhile another process started a backup and was killed, its incomplete
revision is still there and is used as the base: `get_parent` does not ask whether the base is complete. -/

/-- What the killed process leaves behind: a new snapshot, and the mapping file just copied from the base. -/
def exTornWorld : World :=
  { (exChanged.prepared "b" 20 ∅).src.w with
    metas := (exChanged.prepared "b" 20 ∅).src.w.metas.set "b" (some ⟨[(0, Test.hash [0, 0, 0, 0]), (1, Test.hash [1, 1, 1, 1])], 8⟩)
    log := (writePhase Test.env (idealRbd [0, 0, 0, 0, 2, 2, 2, 2] [1]) "b"
      (some (finished (idealRbd [] []) (newRev "a" 10 {"daily"}))) (exChanged.prepared "b" 20 ∅).src).2.log }

/-- The state after the kill. -/
def exKilled : Sys :=
  { (exChanged.prepared "b" 20 ∅).snapshot (newRev "b" 20 ∅) with
    src := { (exChanged.prepared "b" 20 ∅).src with w := exTornWorld } }

theorem exKilled_killed : Killed Test.env false (idealRbd [0, 0, 0, 0, 2, 2, 2, 2] [1]) "b" 20 ∅ exChanged exKilled :=
  .writing (some (finished (idealRbd [] []) (newRev "a" 10 {"daily"}))) exTornWorld (by decide +kernel)
    { old := fun _ _ h => h
      new := fun _ _ h => .inl h
      metas := by
        intro n hn
        show (Dict.set _ "b" _).get? n = _
        rw [Dict.get?_set, if_neg hn]
      log := by decide +kernel
      small := by decide +kernel
      seen := by decide +kernel
      force := rfl }

/-- The daemon: its history is from before the killed backup; the guest has changed the image once more. -/
def exStale : Sys :=
  { src := { exKilled.src with repo := { exKilled.src.repo with history := exChanged.connect.src.repo.history } },
    ceph := { exKilled.ceph with image := [3, 0, 0, 0, 2, 2, 2, 2] } }

/-- Everything `rbd` writes is correct; the diff from the killed backup's snapshot is minimal. -/
def exStaleRbd : Rbd :=
  { idealRbd [3, 0, 0, 0, 2, 2, 2, 2] [0] with
    diffOut := fun p => if p = "b" then (⟨[.size 8], [.data 0 [3]]⟩ : Diff).encode
      else (wholeDiff [3, 0, 0, 0, 2, 2, 2, 2]).encode }

theorem exStaleRbd_works : Works exStaleRbd exStale.ceph.snaps "c" exStale.ceph.image Test.env.cs := by
  refine ⟨rfl, rfl, rfl, rfl, rfl, rfl, rfl, ?_, 1, validSample (by decide)⟩
  intro p c hc
  by_cases hp : p = "b"
  · subst hp
    have hc' : exStale.ceph.snaps.get? (snapName "b") = some [0, 0, 0, 0, 2, 2, 2, 2] := by decide +kernel
    rw [hc'] at hc
    cases hc
    refine ⟨⟨[.size 8], [.data 0 [3]]⟩, ⟨?_, ?_⟩, ⟨?_, ?_, ?_, ?_, ?_, ?_⟩, rfl⟩
    · intro m hm; simp only [List.mem_singleton] at hm; subst hm; show 8 < 2 ^ 64; decide
    · intro m hm; simp only [List.mem_singleton] at hm; subst hm; exact ⟨by decide, by decide⟩
    · intro b hb; simp at hb
    · intro b hb; simp at hb
    · exact List.mem_singleton.2 rfl
    · intro n hn; simp only [List.mem_singleton, MetaRec.size.injEq] at hn; exact hn
    · intro r hr
      simp only [List.mem_singleton] at hr
      subst hr
      refine ⟨by decide +kernel, ?_⟩
      intro i hi
      have : i = 0 := by simp at hi; omega
      subst this; rfl
    · intro q hq hne
      refine ⟨.data 0 [3], by simp, ?_⟩
      have hq' : q < 8 := hq
      have : q = 0 ∨ q = 1 ∨ q = 2 ∨ q = 3 ∨ q = 4 ∨ q = 5 ∨ q = 6 ∨ q = 7 := by omega
      rcases this with rfl | rfl | rfl | rfl | rfl | rfl | rfl | rfl
      · simp [DataRec.Covers]
      all_goals exact absurd rfl hne
  · refine ⟨wholeDiff [3, 0, 0, 0, 2, 2, 2, 2], wholeDiff_valid (by decide), wholeDiff_describes _ _ _ _, ?_⟩
    show (if p = "b" then _ else _) = _
    rw [if_neg hp]

/-- **C45** is false of the code: after a killed backup, the next backup of a process that has read the directory before
that reports success although everything `rbd` did was correct, and its complete revision does not restore to
the image. -/
theorem C45_false_stale_history : ∃ (s0 s s' d : Sys) (o o' : Rbd), New s0 ∧ Steps Test.env s0 s ∧
    Killed Test.env false o "b" 20 ∅ s s' ∧
    d.src.repo.files = s'.src.repo.files ∧ d.src.repo.history = s.connect.src.repo.history ∧ d.src.w = s'.src.w ∧
    d.ceph.snaps = s'.ceph.snaps ∧ Works o' d.ceph.snaps "c" d.ceph.image Test.env.cs ∧
    (runBackup Test.env false o' "c" 30 ∅ d).1 = 0 ∧
    (onDisk (runBackup Test.env false o' "c" 30 ∅ d).2.src.repo.files "c").map Rev.clean = some true ∧
    d.ceph.image = [3, 0, 0, 0, 2, 2, 2, 2] ∧
    restore Test.env (runBackup Test.env false o' "c" 30 ∅ d).2.connect.src.w (newRev "c" 30 ∅) none =
      (.ok (), some [3, 0, 0, 0, 1, 1, 1, 1]) :=
  ⟨exNew, exChanged, exKilled, exStale, _, exStaleRbd, exNew_new, exChanged_steps, exKilled_killed,
    rfl, rfl, rfl, rfl, exStaleRbd_works, by decide +kernel, by decide +kernel, rfl, by decide +kernel⟩

/-! ### C60 -/

/-- **C60** is false of the code: `rbd export` writes half of the image and fails; the backup reports success and its
revision is complete but does not restore to the image. -/
theorem C60_false_cut_export : ∃ (s : Sys) (o : Rbd), New s ∧ ValidSample 1 Test.env.cs s.ceph.image.length o.sample ∧
    o.exportOut = s.ceph.image.take 4 ∧
    (runBackup Test.env false o "a" 10 ∅ s.connect).1 = 0 ∧
    (onDisk (runBackup Test.env false o "a" 10 ∅ s.connect).2.src.repo.files "a").map Rev.clean = some true ∧
    restore Test.env (runBackup Test.env false o "a" 10 ∅ s.connect).2.connect.src.w (newRev "a" 10 ∅) none =
      (.ok (), some (s.ceph.image.take 4)) ∧ s.ceph.image.take 4 ≠ s.ceph.image :=
  ⟨exNew, { idealRbd [0, 0, 0, 0, 1, 1, 1, 1] [0] with exportOut := [0, 0, 0, 0] }, exNew_new, validSample (by decide),
    rfl, by decide +kernel, by decide +kernel, by decide +kernel, by decide⟩

/-- **C60** (`_partial`: incremental backups) If the base exists and `rbd export-diff` ends before the end of its output, the
backup leaves no complete revision and does not exit with 0. -/
theorem C60_cut_diff_partial (env : Env) (af : Bool) (o : Rbd) (uuid : String) (ts : Int) (tags : Finset String)
    (s : Sys) (hn : Named s.src.repo.files) (p : Rev)
    (hp : cephGetParent af ((s.launch uuid ts tags).snapshot (newRev uuid ts tags)).ceph.snaps o.infoFails
      (s.launch uuid ts tags).src.repo (newRev uuid ts tags) = .ok (some p))
    (d : Diff) (hd : d.Valid) (k : Nat) (hk : k < d.encode.length) (hcut : o.diffOut p.uuid = d.encode.take k) :
    (¬ ∃ x, onDisk (runBackup env af o uuid ts tags s).2.src.repo.files uuid = some x ∧ x.clean = true) ∧
    (runBackup env af o uuid ts tags s).1 ≠ 0 := by
  have hnot : ¬ ∃ x, onDisk (runBackup env af o uuid ts tags s).2.src.repo.files uuid = some x ∧ x.clean = true := by
    refine C16_failure_incomplete_partial env af o uuid ts tags s hn ?_
    unfold backupBody
    have hsrc : ((s.launch uuid ts tags).snapshot (newRev uuid ts tags)).src = (s.launch uuid ts tags).src := rfl
    rw [hsrc, hp]
    dsimp only
    have hw : ∃ e, (writePhase env o (newRev uuid ts tags).uuid (some p) (s.launch uuid ts tags).src).1 = .error e := by
      unfold writePhase
      split
      · exact ⟨_, rfl⟩
      · rename_i f _ _
        simp only [transfer]
        rw [hcut]
        obtain ⟨e, he⟩ := C10_truncated_rejected env d hd k hk (ascii (snapName p.uuid)) (ascii (snapName (newRev uuid ts tags).uuid)) f
        unfold closing
        split
        · exact ⟨_, rfl⟩
        · rw [he]; exact ⟨e, rfl⟩
    obtain ⟨e, he⟩ := hw
    generalize writePhase env o (newRev uuid ts tags).uuid (some p) (s.launch uuid ts tags).src = g at *
    obtain ⟨g1, g2⟩ := g
    dsimp only at he
    subst he
    simp
  exact ⟨hnot, fun h => hnot (C16_success_complete_partial env af o uuid ts tags s hn h)⟩

/-- In the example history the second backup has a base. -/
example : cephGetParent false ((exChanged.connect.launch "b" 20 {"daily"}).snapshot (newRev "b" 20 {"daily"})).ceph.snaps false
    (exChanged.connect.launch "b" 20 {"daily"}).src.repo (newRev "b" 20 {"daily"}) =
      .ok (some (finished (idealRbd [] []) (newRev "a" 10 {"daily"}))) ∧
    11 < (wholeDiff [0, 0, 0, 0, 2, 2, 2, 2]).encode.length := by decide +kernel

/-! ### The theorems of this file applied to the killed backup above -/

theorem exKilled_fresh : Fresh exKilled "c" := ⟨by decide +kernel, by decide +kernel, by decide +kernel⟩

/-- C45_chunks_complete_partial -/
example := C45_chunks_complete_partial Test.env exNew exSecond exNew_initial exSecond_steps (Test.collFree _)
  (Test.hash [2, 2, 2, 2]) (some [2, 2, 2, 2]) (by decide +kernel)

/-- C45_complete_survive_partial: the first revision survives the kill of the second backup. -/
example := C45_complete_survive_partial Test.env exNew exChanged exKilled exNew_initial exChanged_steps false _ "b" 20 ∅ exChanged_fresh
  exSecond_works.faithful exKilled_killed (Test.collFree _) (finished (idealRbd [] []) (newRev "a" 10 {"daily"})) (by decide +kernel)
  (by decide +kernel) (by decide +kernel)

/-- C45_next_backup_partial: the backup after the kill. -/
example := C45_next_backup_partial Test.env exNew exChanged exKilled exNew_initial exChanged_steps false _ "b" 20 ∅ exChanged_fresh
  exSecond_works.faithful exKilled_killed false (idealRbd [0, 0, 0, 0, 2, 2, 2, 2] [1]) "c" 30 ∅ exKilled_fresh
  (idealRbd_works [0, 0, 0, 0, 2, 2, 2, 2] (by decide) [1] 1 4 (validSample (by decide)) _ _) (Test.collFree _)

/-- C60_cut_diff_partial: the diff ends after 11 bytes. -/
example := C60_cut_diff_partial Test.env false
  { idealRbd [0, 0, 0, 0, 2, 2, 2, 2] [1] with diffOut := fun _ => (wholeDiff [0, 0, 0, 0, 2, 2, 2, 2]).encode.take 11 } "b" 20 {"daily"}
  exChanged.connect exChanged_named (finished (idealRbd [] []) (newRev "a" 10 {"daily"})) (by decide +kernel)
  (wholeDiff [0, 0, 0, 0, 2, 2, 2, 2]) (wholeDiff_valid (by decide)) 11 (by decide +kernel) rfl

end Verif.Backup
