import Verif.Proofs.BackupRun
import Verif.Spec.History
/-! # The invariant along histories -/
namespace Verif.Backup
open Verif Verif.Chunked Verif.Spec Verif.Rbd Verif.Repo Verif.Files Verif.Diff

/-- The invariant between events. -/
structure Good (env : Env) (s : Sys) : Prop where
  disk : Disk env s.src.w s.ceph.taken s.src.repo.files
  snaps : SnapsOK s.ceph

theorem startsWith_snapName (u : String) : startsWith (snapName u) "backy-" = true := by
  simp [startsWith, snapName, List.isPrefixOf_iff_prefix]

theorem Good.initial {env : Env} {s : Sys} (h : Initial s) : Good env s := by
  refine ⟨⟨⟨?_, ?_⟩, ⟨?_, ?_⟩, ?_⟩, ?_⟩
  · intro x y hy; rw [h.chunks] at hy; cases hy
  · intro x hx; rw [h.seen] at hx; cases hx
  · rw [h.files]; simp [Dict.keys]
  · intro n f hf; rw [h.files] at hf; cases hf
  · intro u r hr; rw [h.files] at hr; cases hr
  · exact h.snaps

theorem New.initial {s : Sys} (h : New s) : Initial s := by
  refine ⟨h.files, h.metas, h.chunks, h.seen, fun u d hd => ?_⟩
  have := h.snaps (snapName u) (by rw [Dict.has, hd]; rfl)
  rw [startsWith_snapName] at this
  cases this

theorem Good.prepared {env : Env} {s : Sys} (h : Good env s) {uuid : String} (hu : Fresh s uuid) (ts : Int)
    (tags : Finset String) : Start env (s.prepared uuid ts tags) (newRev uuid ts tags) := by
  have hm := h.disk.connect
  have hall := hm.all
  have hcore := Stored.core env s.connect.src.w s.ceph.taken
  have hc := hall.clean hcore
  have hnew : Stored env s.connect.src.w s.ceph.taken (newRev uuid ts tags) := by
    intro _ hcl; exact absurd hcl (by simp [newRev, Rev.clean, Dict.has, Dict.get?])
  have hw := hc.writeInfo hnew
  have hd : Disk env s.connect.src.w s.ceph.taken (s.connect.src.repo.clean.writeInfo (newRev uuid ts tags)).files :=
    Disk.ofAll hm.disk.wok hw
  have hmem : Mem env s.ceph.taken (s.prepared uuid ts tags).src := by
    exact Disk.connect (s := { s.connect with src := { s.connect.src with
      repo := s.connect.src.repo.clean.writeInfo (newRev uuid ts tags) } }) hd
  obtain ⟨c1, c2⟩ := clean_complete hm.sync
  have hfiles : (s.prepared uuid ts tags).src.repo.files =
      s.connect.src.repo.clean.files.set (newRev uuid ts tags).uuid ⟨false, newRev uuid ts tags⟩ := rfl
  refine ⟨hmem, h.snaps, ?_, rfl, by simp [newRev], by simp [newRev, Rev.clean, Dict.has, Dict.get?], hu.image, ?_⟩
  · rw [hmem.sync.mem, hfiles, onDisk_set]
    exact if_pos rfl
  · intro x hx hne hs
    rw [hmem.sync.mem, hfiles, onDisk_set, if_neg hne, ← c1.mem, c2] at hx
    exact hx.2 (by simp [Rev.isLocal, hs])

theorem prepared_noSnap {s : Sys} {uuid : String} (hu : Fresh s uuid) (ts : Int) (tags : Finset String) :
    (s.prepared uuid ts tags).ceph.snaps.has (snapName (newRev uuid ts tags).uuid) = false := hu.snap

theorem runBackup_eq {env : Env} {s : Sys} (h : Good env s) {uuid : String} (hu : Fresh s uuid) (af : Bool) (o : Rbd)
    (ts : Int) (tags : Finset String) :
    (runBackup env af o uuid ts tags s.connect).2 =
      (backup env af o (newRev uuid ts tags) (s.prepared uuid ts tags)).2 := by
  have hst := h.prepared hu ts tags
  have hfind : findByUuid (s.prepared uuid ts tags).src.repo uuid = .ok (newRev uuid ts tags) := by
    unfold findByUuid
    cases hf : (s.prepared uuid ts tags).src.repo.history.find? (fun r => decide (r.uuid = uuid)) with
    | none =>
      have := List.find?_eq_none.1 hf _ hst.rev
      simp [newRev] at this
    | some r =>
      have h1 := List.find?_some hf
      simp only [decide_eq_true_eq] at h1
      have h2 := eq_of_uuid hst.mem.sync.nodup (List.mem_of_find?_eq_some hf) hst.rev (by rw [h1]; rfl)
      rw [h2]
  show (mainBackup env af o uuid _).2 = _
  unfold mainBackup
  change (match findByUuid (s.prepared uuid ts tags).src.repo uuid with
    | .error _ => (1, s.prepared uuid ts tags)
    | .ok r => match backup env af o r (s.prepared uuid ts tags) with
      | (.error _, s) => (1, s)
      | (.ok true, s) => (0, s)
      | (.ok false, s) => (1, s)).2 = _
  rw [hfind]
  dsimp only
  generalize backup env af o (newRev uuid ts tags) (s.prepared uuid ts tags) = g
  obtain ⟨g1, g2⟩ := g
  cases g1 with
  | error e => rfl
  | ok b => cases b <;> rfl

theorem Torn.wok {env : Env} {uuid : String} {w v : World} (h : Torn env uuid w v) (hw : WOK env w) : WOK env v := by
  refine ⟨?_, by rw [h.seen]; simp⟩
  intro x y hy
  rcases h.new x y hy with hy | hy
  · obtain ⟨d, a, b, c, e⟩ := hw.good x y hy
    exact ⟨d, a, b, h.log c, e⟩
  · exact hy

theorem Torn.ext {env : Env} {uuid : String} {w v : World} (h : Torn env uuid w v) : ExtN uuid w v :=
  ⟨fun x d hx => h.old x _ hx, h.metas, h.force⟩

/-- Killing a backup anywhere keeps the invariant. -/
theorem Good.killed {env : Env} {L : List Bytes} (hL : CollFree env.H L) {s s' : Sys} (h : Good env s) {af : Bool}
    {o : Rbd} {uuid : String} {ts : Int} {tags : Finset String} (hu : Fresh s uuid)
    (hf : Faithful o s.ceph.snaps uuid s.ceph.image) (hk : Killed env af o uuid ts tags s s')
    (hlog : s'.src.w.log ⊆ L) : Good env s' := by
  have hst := h.prepared hu ts tags
  have hno := prepared_noSnap hu ts tags
  have hf' : Faithful o (s.prepared uuid ts tags).ceph.snaps (newRev uuid ts tags).uuid (s.prepared uuid ts tags).ceph.image := hf
  cases hk with
  | cleaning k =>
    refine ⟨?_, h.snaps⟩
    have hall := h.disk.connect.all
    have hcore := Stored.core env s.connect.src.w s.ceph.taken
    have : All (Stored env s.connect.src.w s.ceph.taken) (cleanUpTo k s.connect.src.repo) := by
      unfold cleanUpTo
      refine All.foldl _ (fun s r hs hr => ?_) _ hall (fun r hr => hall.hist r (List.mem_of_mem_filter (List.mem_of_mem_take hr)))
      split
      · exact hs
      · exact hs.remove hcore hr false
    exact ⟨h.disk.wok, this.named, this.disk⟩
  | created => exact ⟨hst.mem.disk, hst.snaps⟩
  | writing parent v hp hv =>
    have hwv : WOK env v := hv.wok hst.mem.disk.wok
    have hall := hst.disk_ext hwv hv.ext (img := s.ceph.image)
    exact ⟨Disk.ofAll hwv (hall.mono (fun x hx => hx.1)), hst.snapshot_snaps hno⟩
  | leaving o' k =>
    obtain ⟨b1, b2, b3, b4⟩ := backupBody_spec hL af o hst hno hf' hlog
    have hall := hst.disk_ext b1 b2 (img := s.ceph.image)
    have hst' := hall.mono (fun x hx => hx.1)
    have hcore := Stored.core env (backupBody env af o (newRev uuid ts tags) (s.prepared uuid ts tags).ceph.image
      ((s.prepared uuid ts tags).snapshot (newRev uuid ts tags))).2 ((s.prepared uuid ts tags).ceph.taken.set (newRev uuid ts tags).uuid s.ceph.image)
    have hd := hst'.distrust hcore ((s.prepared uuid ts tags).src.repo.localHistory.take k)
      (fun x hx => hst'.hist x (List.mem_of_mem_filter (List.mem_of_mem_take hx)))
    refine ⟨Disk.ofAll b1 hd, ?_⟩
    intro u d hd
    exact hst.snapshot_snaps hno u d (deleteOldSnapshots_sub _ _ _ _ _ _ hd)
  | completed o' hv =>
    obtain ⟨b1, b2, b3, b4⟩ := backupBody_spec hL af o hst hno hf' hlog
    have hall := hst.disk_ext b1 b2 (img := s.ceph.image)
    have hst' := hall.mono (fun x hx => hx.1)
    refine ⟨Disk.ofAll b1 (hst'.store ?_), ?_⟩
    · intro _ _
      exact ⟨s.ceph.image, by
        show ((s.prepared uuid ts tags).ceph.taken.set uuid s.ceph.image).get? uuid = _
        simp, b4 true hv⟩
    · intro u d hd
      exact hst.snapshot_snaps hno u d (deleteOldSnapshots_sub _ _ _ _ _ _ hd)

theorem gc_log (s : Src) : s.gc.2.w.log = s.w.log := by
  unfold Src.gc; split
  · rfl
  · exact purge_log _ _

theorem verifyMark_log (env : Env) (order : List Hash → List Hash) (s : Src) (r : Rev) :
    (Src.verifyMark env order s r).2.w.log = s.w.log := by
  unfold Src.verifyMark
  split
  · rfl
  · split
    · rfl
    · split <;> rfl

theorem verify_log (env : Env) (order : List Hash → List Hash) (s : Src) (r : Rev) :
    (Src.verify env order s r).2.w.log = s.w.log := by
  have hm := verifyMark_log env order s r
  unfold Src.verify
  split
  · rename_i heq; rw [heq] at hm; exact hm
  · rename_i heq; rw [heq] at hm; rw [gc_log]; exact hm

theorem backup_log (env : Env) (af : Bool) (o : Rbd) (r : Rev) (s : Sys) :
    s.src.w.log ⊆ (backup env af o r s).2.src.w.log := by
  unfold backup
  split
  · exact fun _ h => h
  · split
    · exact fun _ h => h
    · dsimp only
      rw [afterSnapshot_log]
      exact backupBody_log env af o r s.ceph.image (s.snapshot r)

theorem runBackup_log (env : Env) (af : Bool) (o : Rbd) (uuid : String) (ts : Int) (tags : Finset String) (s : Sys) :
    s.src.w.log ⊆ (runBackup env af o uuid ts tags s).2.src.w.log := by
  unfold runBackup mainBackup
  split
  · exact fun _ h => h
  · rename_i r _
    have h := backup_log env af o r (Sys.connect { s with src := { s.src with
      repo := s.src.repo.clean.writeInfo (newRev uuid ts tags) } })
    split
    · rename_i heq; rw [heq] at h; exact h
    · rename_i heq; rw [heq] at h; exact h
    · rename_i heq; rw [heq] at h; exact h

theorem gcSome_log (left : Hash → Bool) (s : Src) : (gcSome left s).w.log = s.w.log := by
  unfold gcSome; split <;> rfl

/-- What was hashed is never forgotten. -/
theorem Step.log {env : Env} {s s' : Sys} (h : Step env s s') : s.src.w.log ⊆ s'.src.w.log := by
  cases h with
  | backup af o uuid ts tags hu hf => exact runBackup_log env af o uuid ts tags s.connect
  | killed s2 af o uuid ts tags hu hf hk =>
    cases hk with
    | cleaning k => exact fun _ h => h
    | created => exact fun _ h => h
    | writing parent v hp hv =>
      exact hv.log
    | leaving o' k => exact backupBody_log env af o _ s.ceph.image ((s.prepared uuid ts tags).snapshot (newRev uuid ts tags))
    | completed o' hv => exact backupBody_log env af o _ s.ceph.image ((s.prepared uuid ts tags).snapshot (newRev uuid ts tags))
  | verify order r h => show _ ⊆ (Src.verify env order s.connect.src r).2.w.log; rw [verify_log]; exact fun _ h => h
  | verifyKilled order r h => show _ ⊆ (Src.verifyMark env order s.connect.src r).2.w.log; rw [verifyMark_log]; exact fun _ h => h
  | gc => show _ ⊆ s.connect.src.gc.2.w.log; rw [gc_log]; exact fun _ h => h
  | gcKilled left => show _ ⊆ (gcSome left s.connect.src).w.log; rw [gcSome_log]; exact fun _ h => h
  | _ => exact fun _ h => h

theorem Mem.gcSome {env : Env} {taken : Dict String Bytes} {s : Src} (h : Mem env taken s) (hseen : s.w.seen = [])
    (left : Hash → Bool) : Mem env taken (gcSome left s) := by
  unfold Backup.gcSome
  cases hu : usedChunks s.w s.repo.localHistory [] with
  | error e => exact h
  | ok used =>
    have hget : ∀ x, Dict.get? (s.w.chunks.filter (fun y => decide (y.1 ∈ used) || left y.1)) x =
        if (decide (x ∈ used) || left x) = true then s.w.chunks.get? x else none :=
      fun x => Dict.get?_filter s.w.chunks (fun k => decide (k ∈ used) || left k) x
    have hkeep : ∀ x d, x ∈ used → s.w.chunks.get? x = some d →
        Dict.get? (s.w.chunks.filter (fun y => decide (y.1 ∈ used) || left y.1)) x = some d := by
      intro x d hx hd
      rw [hget, if_pos (by simp [hx])]; exact hd
    refine ⟨⟨⟨?_, ?_⟩, h.disk.named, ?_⟩, h.sync⟩
    · intro x y hy
      have hy' : Dict.get? (s.w.chunks.filter (fun y => decide (y.1 ∈ used) || left y.1)) x = some y := hy
      rw [hget] at hy'
      split at hy'
      · exact h.disk.wok.good x y hy'
      · cases hy'
    · intro x hx
      have : x ∈ s.w.seen := hx
      rw [hseen] at this; cases this
    · intro u r hr hs hc
      obtain ⟨c, h1, m, m1, m2, m3, m4⟩ := h.disk.good u r hr hs hc
      have hru : r.uuid = u := onDisk_uuid h.disk.named hr
      have hr' : r ∈ s.repo.history := (h.sync.mem r).2 (by rw [hru]; exact hr)
      have hused : ∀ x ∈ m.mapping.values, x ∈ used := fun x hx =>
        ((usedChunks_ok hu).2 x).2 (.inr ⟨r, by simp [Repo.localHistory, Repo.getHistory, hr', Rev.isLocal, hs], m, m1, hx⟩)
      refine ⟨c, h1, m, m1, m2, ?_, ?_⟩
      · intro x hx
        obtain ⟨d, hd⟩ := m3 x hx
        exact ⟨d, hkeep x _ (hused x hx) hd⟩
      · intro p hp
        obtain ⟨a, d, a1, a2, a3, a4⟩ := m4 p hp
        exact ⟨a, d, a1, hkeep a _ (hused a (mem_values_of_get? a1)) a2, a3, a4⟩

/-- Every event keeps the invariant. -/
theorem Good.step {env : Env} {L : List Bytes} (hL : CollFree env.H L) {s s' : Sys} (h : Good env s)
    (hs : Step env s s') (hlog : s'.src.w.log ⊆ L) : Good env s' := by
  have hm := h.disk.connect
  have hall := hm.all
  have hcore := Stored.core env s.connect.src.w s.ceph.taken
  cases hs with
  | guest img => exact ⟨h.disk, h.snaps⟩
  | backup af o uuid ts tags hu hf =>
    rw [runBackup_eq h hu] at hlog ⊢
    obtain ⟨b1, b2, _⟩ := backup_disk hL af o (h.prepared hu ts tags) hf hlog
    exact ⟨b1, b2⟩
  | killed s2 af o uuid ts tags hu hf hk => exact h.killed hL hu hf hk hlog
  | rm revs hr => exact ⟨Disk.ofAll hm.disk.wok (hall.rm hcore revs (fun r hx => hall.hist r (hr r hx))), h.snaps⟩
  | expire sch pd now => exact ⟨Disk.ofAll hm.disk.wok (hall.expire hcore sch pd now), h.snaps⟩
  | distrust revs hr => exact ⟨Disk.ofAll hm.disk.wok (hall.distrust hcore revs (fun r hx => hall.hist r (hr r hx))), h.snaps⟩
  | tags sch pd action spec tags expect auto force =>
    exact ⟨Disk.ofAll hm.disk.wok (hall.tagsOp hcore sch pd action spec tags expect auto force), h.snaps⟩
  | verify order r hr => exact ⟨(hm.verify hr order).1.disk, h.snaps⟩
  | verifyKilled order r hr => exact ⟨(hm.verifyMark hr order).1.disk, h.snaps⟩
  | gc => exact ⟨hm.gc.1.disk, h.snaps⟩
  | gcKilled left => exact ⟨(hm.gcSome rfl left).disk, h.snaps⟩
  | remote r hr =>
    have hall' : All (Stored env s.src.w s.ceph.taken) s.src.repo.scan :=
      ⟨fun r hr => h.disk.good _ r ((Repo.scan_mem h.disk.named r).1 hr), h.disk.good, h.disk.named⟩
    have := hall'.writeInfo (r := r) (fun hs => absurd hs hr)
    exact ⟨⟨h.disk.wok, this.named, this.disk⟩, h.snaps⟩
  | drop r =>
    have hall' : All (Stored env s.src.w s.ceph.taken) s.src.repo.scan :=
      ⟨fun r hr => h.disk.good _ r ((Repo.scan_mem h.disk.named r).1 hr), h.disk.good, h.disk.named⟩
    have := hall'.drop r
    exact ⟨⟨h.disk.wok, this.named, this.disk⟩, h.snaps⟩
  | snapsGone keep =>
    refine ⟨h.disk, ?_⟩
    intro u d hd
    have hd' : Dict.get? (s.ceph.snaps.filter (fun x => keep x.1)) (snapName u) = some d := hd
    rw [Dict.get?_filter] at hd'
    split at hd'
    · exact h.snaps u d hd'
    · cases hd'
  | snapForeign name content hn =>
    refine ⟨h.disk, ?_⟩
    intro u d hd
    have hd' : (s.ceph.snaps ++ [(name, content)] : Dict String Bytes).get? (snapName u) = some d := hd
    rw [get?_append_single, if_neg (fun he => by rw [← he, startsWith_snapName] at hn; cases hn)] at hd'
    simp at hd'
    exact h.snaps u d hd'

theorem Steps.log {env : Env} {s s' : Sys} (h : Steps env s s') : s.src.w.log ⊆ s'.src.w.log := by
  induction h with
  | nil => exact fun _ h => h
  | cons _ h' ih => exact fun x hx => h'.log (ih hx)

theorem Good.steps {env : Env} {L : List Bytes} (hL : CollFree env.H L) {s s' : Sys} (h : Good env s)
    (hs : Steps env s s') (hlog : s'.src.w.log ⊆ L) : Good env s' := by
  induction hs with
  | nil => exact h
  | cons _ h' ih => exact (ih (fun x hx => hlog (h'.log hx))).step hL h' hlog

end Verif.Backup
