import Verif.Props.Backup
/-!
# Backups succeed: the hypotheses of C13 and C16 can be met

If all `rbd` commands do what they should (`Works`), a backup succeeds and the revision restores to the image.
-/
namespace Verif.Backup
open Verif Verif.Chunked Verif.Spec Verif.Rbd Verif.Repo Verif.Files Verif.Diff

theorem Good.backup_succeeds {env : Env} {s : Sys} (hg : Good env s) (af : Bool) (o : Rbd)
    (uuid : String) (ts : Int) (tags : Finset String) (hu : Fresh s uuid)
    (hf : Works o s.ceph.snaps uuid s.ceph.image env.cs)
    (hcoll : CollFree env.H (runBackup env af o uuid ts tags s.connect).2.src.w.log) :
    (runBackup env af o uuid ts tags s.connect).1 = 0 ∧
    ∃ x, onDisk (runBackup env af o uuid ts tags s.connect).2.src.repo.files uuid = some x ∧ x.clean = true ∧
      ∀ target, restore env (runBackup env af o uuid ts tags s.connect).2.connect.src.w x target =
        (.ok (), some s.ceph.image) := by
  have hn : Named s.connect.src.repo.files := hg.disk.named
  have hst := hg.prepared hu ts tags
  have hno := prepared_noSnap hu ts tags
  have hver : Verified env af o uuid ts tags s.connect := by
    refine ⟨hf.ready, hf.snapCreate, hu.snap, hf.snapLs, ?_⟩
    refine backupBody_ok hcoll hst hno hf ?_
    rw [(runBackup_launch env af o uuid ts tags s.connect hn).1]
    show _ ⊆ (backup env af o (newRev uuid ts tags) (s.prepared uuid ts tags)).2.src.w.log
    unfold backup
    rw [if_neg (by simp [hf.ready]), if_neg (by simp [hf.snapCreate, hno])]
    dsimp only
    rw [afterSnapshot_log]
    exact fun _ h => h
  obtain ⟨x, x1, x2⟩ := (complete_iff_verified env af o uuid ts tags s.connect hn).2 hver
  refine ⟨(hg.exit_code af o uuid ts tags hu hf.faithful hcoll).2 ⟨x, x1, x2⟩, x, x1, x2, ?_⟩
  have hg' := hg.step hcoll (.backup s af o uuid ts tags hu hf.faithful) (fun _ h => h)
  have hxu : x.uuid = uuid := onDisk_uuid hg'.disk.named x1
  have hsrv : x.server = "" := by
    rw [(runBackup_launch env af o uuid ts tags s.connect hn).1] at x1
    change onDisk (backup env af o (newRev uuid ts tags) (s.prepared uuid ts tags)).2.src.repo.files uuid = _ at x1
    unfold backup at x1
    rw [if_neg (by simp [hf.ready]), if_neg (by simp [hf.snapCreate, hno])] at x1
    dsimp only at x1
    have hdel : (deleteOldSnapshots o af (s.prepared uuid ts tags).src.repo
        ((s.prepared uuid ts tags).snapshot (newRev uuid ts tags)).ceph.snaps).1 = .ok () := by
      simp [deleteOldSnapshots, hf.snapLs]
    have hv : (backupBody env af o (newRev uuid ts tags) (s.prepared uuid ts tags).ceph.image
        ((s.prepared uuid ts tags).snapshot (newRev uuid ts tags))).1 = .ok true := hver.2.2.2.2
    rw [hv, hdel] at x1
    simp only [exitWith, afterSnapshot] at x1
    have := conclude_files (env := env) (o := o) (s := { (s.prepared uuid ts tags).src with w := (backupBody env af o (newRev uuid ts tags) (s.prepared uuid ts tags).ceph.image
        ((s.prepared uuid ts tags).snapshot (newRev uuid ts tags))).2 }) hst.mem.disk.named
      (r := newRev uuid ts tags) rfl (by simp [newRev]) true
    have e : (newRev uuid ts tags).uuid = uuid := rfl
    rw [e] at this
    rw [this] at x1
    simp only [if_true, Option.some.injEq] at x1
    rw [← x1]; rfl
  have hm := hg'.disk.connect
  obtain ⟨c, c1, c2⟩ := hm.disk.good x.uuid x (by rw [hxu]; exact x1) hsrv x2
  have c2 := C20_restore_file env _ x c hm.disk.wok c2 hcoll
  have himg : (runBackup env af o uuid ts tags s.connect).2.ceph.taken.get? uuid = some s.ceph.image := by
    rw [(runBackup_launch env af o uuid ts tags s.connect hn).1]
    show (backup env af o (newRev uuid ts tags) (s.prepared uuid ts tags)).2.ceph.taken.get? uuid = _
    unfold backup
    rw [if_neg (by simp [hf.ready]), if_neg (by simp [hf.snapCreate, hno])]
    show (s.ceph.taken.set uuid s.ceph.image).get? uuid = _
    simp
  rw [hxu, himg] at c1
  cases c1
  exact c2

/-- **C13** After any history: a backup during which `rbd` works (the snapshot is created, the export or
the diff from the chosen base is correct and complete) succeeds, leaves a complete revision, and this
revision restores to the image.  Whether it is full or incremental is decided by the code. -/
theorem C13_backup_succeeds (env : Env) (s0 s : Sys) (h0 : Initial s0) (hs : Steps env s0 s) (af : Bool) (o : Rbd)
    (uuid : String) (ts : Int) (tags : Finset String) (hu : Fresh s uuid)
    (hf : Works o s.ceph.snaps uuid s.ceph.image env.cs)
    (hcoll : CollFree env.H (runBackup env af o uuid ts tags s.connect).2.src.w.log) :
    (runBackup env af o uuid ts tags s.connect).1 = 0 ∧
    ∃ x, onDisk (runBackup env af o uuid ts tags s.connect).2.src.repo.files uuid = some x ∧ x.clean = true ∧
      ∀ target, restore env (runBackup env af o uuid ts tags s.connect).2.connect.src.w x target =
        (.ok (), some s.ceph.image) :=
  ((Good.initial (env := env) h0).steps hcoll hs (runBackup_log env af o uuid ts tags s.connect)).backup_succeeds af o uuid ts tags hu hf hcoll

/-! ### A concrete history

An image of eight bytes is backed up, changed and backed up again, incrementally. -/

/-- A diff that contains the whole image. -/
def wholeDiff (image : Bytes) : Diff := ⟨[.size image.length], [.data 0 image]⟩

theorem wholeDiff_valid {image : Bytes} (h : image.length < 2 ^ 64) : (wholeDiff image).Valid := by
  constructor
  · intro m hm
    simp only [wholeDiff, List.mem_singleton] at hm
    subst hm; exact h
  · intro m hm
    simp only [wholeDiff, List.mem_singleton] at hm
    subst hm; exact ⟨by decide, h⟩

theorem wholeDiff_describes (image old f t : Bytes) : (wholeDiff image).Describes f t old image := by
  refine ⟨?_, ?_, by simp [wholeDiff], ?_, ?_, ?_⟩
  · intro b hb; simp [wholeDiff] at hb
  · intro b hb; simp [wholeDiff] at hb
  · intro n hn; simpa [wholeDiff] using hn
  · intro r hr
    simp only [wholeDiff, List.mem_singleton] at hr
    subst hr
    exact ⟨by simp, by intro i hi; simp⟩
  · intro p hp _
    exact ⟨.data 0 image, by simp [wholeDiff], by simpa [DataRec.Covers] using hp⟩

/-- Environment in which everything works. -/
def idealRbd (image : Bytes) (sample : List Nat) : Rbd :=
  { ready := true, snapCreateFails := false, infoFails := false, exportOut := image,
    diffOut := fun _ => (wholeDiff image).encode, mapFails := false, unmapFails := false, sample,
    expired := fun _ => false, snapLsFails := false, snapRmFails := fun _ => false, duration := 1, order := id }

theorem idealRbd_works (image : Bytes) (h : image.length < 2 ^ 64) (sample : List Nat) (n bs : Nat)
    (hs : ValidSample n bs image.length sample) (snaps : Dict String Bytes) (uuid : String) :
    Works (idealRbd image sample) snaps uuid image bs :=
  ⟨rfl, rfl, rfl, rfl, rfl, rfl, rfl,
    fun _ _ _ => ⟨_, wholeDiff_valid h, wholeDiff_describes _ _ _ _, rfl⟩, ⟨n, hs⟩⟩

/-- A new repository for an image with a snapshot of another owner. -/
def exNew : Sys :=
  ⟨⟨⟨[], [], []⟩, ⟨[], [], [], false, 0, []⟩⟩, ⟨[0, 0, 0, 0, 1, 1, 1, 1], [("nightly", [9])], []⟩⟩

/-- After the first backup. -/
def exFirst : Sys := (runBackup Test.env false (idealRbd [0, 0, 0, 0, 1, 1, 1, 1] [0]) "a" 10 {"daily"} exNew.connect).2

/-- The guest has changed the image. -/
def exChanged : Sys := { exFirst with ceph := { exFirst.ceph with image := [0, 0, 0, 0, 2, 2, 2, 2] } }

/-- After the second backup. -/
def exSecond : Sys :=
  (runBackup Test.env false (idealRbd [0, 0, 0, 0, 2, 2, 2, 2] [1]) "b" 20 {"daily"} exChanged.connect).2

theorem exNew_new : New exNew :=
  ⟨rfl, rfl, rfl, rfl, by
    intro n hn
    simp only [exNew, Dict.has, Dict.get?] at hn
    split at hn
    · subst_vars; decide +kernel
    · cases hn⟩

theorem exNew_initial : Initial exNew := exNew_new.initial

theorem exFirst_fresh : Fresh exNew "a" := ⟨by decide +kernel, by decide +kernel, by decide +kernel⟩
theorem exChanged_fresh : Fresh exChanged "b" := ⟨by decide +kernel, by decide +kernel, by decide +kernel⟩

theorem validSample {b : Nat} (hb : b < 2) : ValidSample 1 4 8 [b] :=
  ⟨by intro x hx; simp only [List.mem_singleton] at hx; subst hx; exact hb, by simp, rfl⟩

theorem exFirst_works : Works (idealRbd [0, 0, 0, 0, 1, 1, 1, 1] [0]) exNew.ceph.snaps "a" exNew.ceph.image Test.env.cs :=
  idealRbd_works [0, 0, 0, 0, 1, 1, 1, 1] (by decide) [0] 1 4 (validSample (by decide)) _ _

theorem exSecond_works : Works (idealRbd [0, 0, 0, 0, 2, 2, 2, 2] [1]) exChanged.ceph.snaps "b" exChanged.ceph.image Test.env.cs :=
  idealRbd_works [0, 0, 0, 0, 2, 2, 2, 2] (by decide) [1] 1 4 (validSample (by decide)) _ _

theorem exChanged_steps : Steps Test.env exNew exChanged :=
  .cons (.cons (.nil _) (.backup _ _ _ _ _ _ exFirst_fresh exFirst_works.faithful)) (.guest _ _)

/-- The history meets the hypotheses of C13. -/
theorem exSecond_steps : Steps Test.env exNew exSecond :=
  .cons exChanged_steps (.backup _ _ _ _ _ _ exChanged_fresh exSecond_works.faithful)

/-- Both revisions are complete, and the snapshot of the first one is gone. -/
example : onDisk exSecond.src.repo.files "a" = some { finished (idealRbd [] []) (newRev "a" 10 {"daily"}) with } ∧
    onDisk exSecond.src.repo.files "b" = some { finished (idealRbd [] []) (newRev "b" 20 {"daily"}) with } ∧
    exSecond.ceph.snaps.keys = ["nightly", "backy-b"] := by decide +kernel

/-- The second backup is incremental. -/
example : cephGetParent false ((exChanged.prepared "b" 20 {"daily"}).snapshot (newRev "b" 20 {"daily"})).ceph.snaps false
    (exChanged.prepared "b" 20 {"daily"}).src.repo (newRev "b" 20 {"daily"}) =
      .ok (some (finished (idealRbd [] []) (newRev "a" 10 {"daily"}))) := by decide +kernel

/-- Evaluating the model gives what C13 says. -/
example : (restore Test.env exSecond.connect.src.w (newRev "a" 10 ∅) (some [7])).2 = some [0, 0, 0, 0, 1, 1, 1, 1] ∧
    (restore Test.env exSecond.connect.src.w (newRev "b" 20 ∅) none).2 = some [0, 0, 0, 0, 2, 2, 2, 2] := by
  decide +kernel

example : (runBackup Test.env false (idealRbd [0, 0, 0, 0, 2, 2, 2, 2] [1]) "b" 20 {"daily"} exChanged.connect).1 = 0 :=
  (C13_backup_succeeds _ _ _ exNew_initial exChanged_steps _ _ _ _ _ exChanged_fresh exSecond_works (Test.collFree _)).1

/-! ### The theorems of Props/Backup applied to this history -/

/-- C13_restores_snapshot: the second backup. -/
example := C13_restores_snapshot Test.env exNew exSecond exNew_initial exSecond_steps (Test.collFree _)
  (finished (idealRbd [] []) (newRev "b" 20 {"daily"})) (by decide +kernel) (by decide +kernel) (by decide +kernel)

/-- C13_record_stable: the second backup does not change what was recorded for the first. -/
example := C13_record_stable Test.env exChanged exSecond (.backup _ _ _ _ _ _ exChanged_fresh exSecond_works.faithful) "a"
  (fun h => absurd h.1 (by decide +kernel))

/-- C14_parent, C14_terminates and C14_applies: the second backup. -/
example := C14_parent (exChanged.connect.launch "b" 20 {"daily"}).src.repo (by decide +kernel) (by decide +kernel)
  [finished (idealRbd [] []) (newRev "a" 10 {"daily"})] [] (newRev "b" 20 {"daily"}) (by decide +kernel) (by decide)
  ((exChanged.connect.launch "b" 20 {"daily"}).snapshot (newRev "b" 20 {"daily"})).ceph.snaps
example := C14_terminates false true (exChanged.connect.launch "b" 20 {"daily"}).src.repo (by decide +kernel) (newRev "b" 20 {"daily"})
  (by decide +kernel) (by decide) exChanged.ceph.snaps

/-- C14_full_without_base: the first backup. -/
example := C14_full_without_base Test.env false (idealRbd [0, 0, 0, 0, 1, 1, 1, 1] [0]) (fun _ => [9]) (newRev "a" 10 ∅)
  [0, 0, 0, 0, 1, 1, 1, 1] ((exNew.prepared "a" 10 ∅).snapshot (newRev "a" 10 ∅)) (by decide +kernel)

/-- C16_exit_code_partial, C16_success_complete_partial: the second backup. -/
example := C16_exit_code_partial Test.env exNew exChanged exNew_initial exChanged_steps false (idealRbd [0, 0, 0, 0, 2, 2, 2, 2] [1])
  "b" 20 {"daily"} exChanged_fresh exSecond_works.faithful (Test.collFree _)
theorem exChanged_named : Named exChanged.connect.src.repo.files :=
  ((Good.initial exNew_initial).steps (Test.collFree exChanged.src.w.log) exChanged_steps (fun _ h => h)).disk.named
theorem exSecond_named : Named exSecond.connect.src.repo.files :=
  ((Good.initial exNew_initial).steps (Test.collFree exSecond.src.w.log) exSecond_steps (fun _ h => h)).disk.named
example := C16_success_complete_partial Test.env false (idealRbd [0, 0, 0, 0, 2, 2, 2, 2] [1]) "b" 20 {"daily"} exChanged.connect
  exChanged_named (by decide +kernel)

/-- C16_failure_incomplete_partial: the volume shows something else than the export delivered. -/
example := C16_failure_incomplete_partial Test.env false (idealRbd [0, 0, 0, 0, 9, 9, 9, 9] [1]) "b" 20 {"daily"} exChanged.connect
  exChanged_named (by decide +kernel)

end Verif.Backup
