import Verif.Proofs.BackupFiles
import Verif.Props.Files
/-!
# Properties C13, C14, C16 to C18: backups

`Spec/History.lean` defines histories of events; `Faithful` says what is assumed of the output of `rbd`.
`Fresh` says that a new uuid has not been used.  `CollFree` says that among all contents ever hashed there
is no hash collision.
-/
namespace Verif.Backup
open Verif Verif.Chunked Verif.Spec Verif.Rbd Verif.Repo Verif.Files Verif.Diff

/-! ### C13 -/

/-- **C13** After any history of events that starts with an empty repository, every complete local revision restores
to exactly the bytes the image had when the snapshot of that revision was taken: to a file with
any previous content and to standard output. -/
theorem C13_restores_snapshot (env : Env) (s0 s : Sys) (h0 : Initial s0) (hs : Steps env s0 s)
    (hcoll : CollFree env.H s.src.w.log) (r : Rev) (hr : onDisk s.src.repo.files r.uuid = some r)
    (hl : r.server = "") (hc : r.clean = true) :
    ∃ c, s.ceph.taken.get? r.uuid = some c ∧
      (∀ target, restore env s.connect.src.w r target = (.ok (), some c)) ∧
      restoreOut env s.connect.src.w r = (.ok (), c) := by
  have hg := (Good.initial (env := env) h0).steps hcoll hs (fun _ h => h)
  have hm := hg.disk.connect
  obtain ⟨c, h1, h2⟩ := hm.disk.good r.uuid r hr hl hc
  exact ⟨c, h1, C20_restore_file env _ r c hm.disk.wok h2 hcoll, C20_restore_stdout env _ r c hm.disk.wok h2 hcoll⟩

/-- **C13** (the record of what a snapshot contains is set by a backup of that uuid and by nothing else). -/
theorem C13_record_stable (env : Env) (s s' : Sys) (h : Step env s s') (u : String) (hu : ¬ Fresh s u) :
    s'.ceph.taken.get? u = s.ceph.taken.get? u := by
  have key : ∀ (uuid : String) (d : Bytes), Fresh s uuid →
      (s.ceph.taken.set uuid d).get? u = s.ceph.taken.get? u := by
    intro uuid d hf
    rw [Dict.get?_set, if_neg]
    intro he; subst he; exact hu hf
  have hbk : ∀ (af : Bool) (o : Rbd) (r : Rev) (x : Sys), Fresh s r.uuid → x.ceph.taken = s.ceph.taken →
      (backup env af o r x).2.ceph.taken.get? u = s.ceph.taken.get? u := by
    intro af o r x hf hx
    unfold backup
    split
    · rw [hx]
    · split
      · rw [hx]
      · show (x.ceph.taken.set r.uuid x.ceph.image).get? u = _
        rw [hx]; exact key _ _ hf
  cases h with
  | backup af o uuid ts tags hf hfa =>
    show (mainBackup env af o uuid _).2.ceph.taken.get? u = _
    unfold mainBackup
    split
    · rfl
    · rename_i r hr
      have hru : r.uuid = uuid := by
        unfold findByUuid at hr
        split at hr
        · cases hr
        · rename_i x hx
          cases hr
          simpa using List.find?_some hx
      have hb := hbk af o r (Sys.connect { s.connect with src := { s.connect.src with
        repo := s.connect.src.repo.clean.writeInfo (newRev uuid ts tags) } }) (by rw [hru]; exact hf) rfl
      split
      · rename_i heq; rw [heq] at hb; exact hb
      · rename_i heq; rw [heq] at hb; exact hb
      · rename_i heq; rw [heq] at hb; exact hb
  | killed s2 af o uuid ts tags hf hfa hk =>
    cases hk with
    | cleaning k => rfl
    | created => rfl
    | writing parent v hp hv => exact key uuid _ hf
    | leaving o' k => exact key uuid _ hf
    | completed o' hv => exact key uuid _ hf
  | _ => rfl

/-! ### C14 -/

/-- **C14** For every history with distinct uuids, every set of snapshots and every new revision that is not distrusted, the
search for a base ends.  The base is an older revision of the same server, not distrusted, with an existing snapshot, and
the newest such; if there is no base there is no such revision. -/
theorem C14_parent (repo : Repo) (hsort : repo.history.Pairwise (fun a b => a.ts ≤ b.ts))
    (hn : (repo.history.map Rev.uuid).Nodup) (older newer : List Rev) (r : Rev) (hh : repo.history = older ++ r :: newer)
    (ht : r.trust ≠ .distrusted) (snaps : Dict String Bytes) :
    ∃ res, cephGetParent false snaps false repo r = .ok res ∧
      (∀ p, res = some p → ∃ a b, older = a ++ p :: b ∧ p.ts ≤ r.ts ∧ p.uuid ≠ r.uuid ∧ p.server = r.server ∧
        p.trust ≠ .distrusted ∧ snaps.has (snapName p.uuid) = true ∧
        ∀ x ∈ b, ¬ (x.server = r.server ∧ x.trust ≠ .distrusted ∧ snaps.has (snapName x.uuid) = true)) ∧
      (res = none → ∀ x ∈ older, ¬ (x.server = r.server ∧ x.trust ≠ .distrusted ∧ snaps.has (snapName x.uuid) = true)) := by
  obtain ⟨res, h1, h2, h3⟩ := parentLoop_spec snaps repo (repo.history.length + 1) older r newer hh hn ht
    (by rw [hh]; simp; omega)
  refine ⟨res, h1, ?_, ?_⟩
  · intro p hp
    obtain ⟨a, b, e1, e2, e3⟩ := h2 p hp
    refine ⟨a, b, e1, ?_, ?_, e2.server, e2.trust, e2.snap, fun x hx hc => e3 x hx ⟨hc.2.1, hc.1, hc.2.2⟩⟩
    · rw [hh, List.pairwise_append] at hsort
      exact hsort.2.2 p (by rw [e1]; simp) r (by simp)
    · intro he
      rw [hh, List.map_append, List.map_cons] at hn
      exact List.disjoint_of_nodup_append hn (List.mem_map_of_mem (by rw [e1]; simp : p ∈ older)) (by rw [he]; simp)
  · intro hr x hx hc
    exact h3 hr x hx ⟨hc.2.1, hc.1, hc.2.2⟩

/-- **C14** With full backups forced or with a failing `rbd` the search ends as well. -/
theorem C14_terminates (af infoFails : Bool) (repo : Repo) (hn : (repo.history.map Rev.uuid).Nodup) (r : Rev)
    (hr : r ∈ repo.history) (ht : r.trust ≠ .distrusted) (snaps : Dict String Bytes) :
    cephGetParent af snaps infoFails repo r ≠ .error .diverge := by
  unfold cephGetParent
  split
  · simp
  · cases infoFails with
    | true =>
      unfold parentLoop
      split
      · simp
      · rw [if_pos rfl]; simp
    | false =>
      obtain ⟨a, b, hab⟩ := List.append_of_mem hr
      obtain ⟨res, h1, _⟩ := parentLoop_spec snaps repo (repo.history.length + 1) a r b hab hn ht (by rw [hab]; simp; omega)
      rw [h1]; simp

/-- **C14** Without a base the backup is full: the stored data does not depend on any diff `rbd` could
produce. -/
theorem C14_full_without_base (env : Env) (af : Bool) (o : Rbd) (d : String → Bytes) (r : Rev) (image : Bytes) (s : Sys)
    (h : cephGetParent af s.ceph.snaps o.infoFails s.src.repo r = .ok none) :
    backupBody env af { o with diffOut := d } r image s = backupBody env af o r image s := by
  unfold backupBody
  simp only
  rw [h]
  rfl

/-- **C14** The search starts in the situation the theorems above assume: a scanned directory in which the new revision was
written. -/
theorem C14_applies (s : Sys) (hn : Named s.src.repo.files) (uuid : String) (ts : Int) (tags : Finset String) :
    let repo := (s.launch uuid ts tags).src.repo
    repo.history.Pairwise (fun a b => a.ts ≤ b.ts) ∧ (repo.history.map Rev.uuid).Nodup ∧
    newRev uuid ts tags ∈ repo.history ∧ (newRev uuid ts tags).trust ≠ .distrusted := by
  refine ⟨Repo.scan_sorted _, Repo.scan_nodup _, ?_, by simp [newRev]⟩
  have hall : All (fun _ => True) s.src.repo := ⟨fun _ _ => trivial, fun _ _ _ => trivial, hn⟩
  have hc := (hall.clean (fun _ _ _ _ _ _ _ => trivial)).writeInfo (r := newRev uuid ts tags) trivial
  refine (Repo.scan_mem hc.named _).2 ?_
  show onDisk (s.src.repo.clean.files.set (newRev uuid ts tags).uuid ⟨false, newRev uuid ts tags⟩) _ = _
  rw [onDisk_set, if_pos rfl]

/-! ### C16 -/

theorem launch_named {s : Sys} (hn : Named s.src.repo.files) (uuid : String) (ts : Int) (tags : Finset String) :
    Named (s.launch uuid ts tags).src.repo.files := by
  have hall : All (fun _ => True) s.src.repo := ⟨fun _ _ => trivial, fun _ _ _ => trivial, hn⟩
  exact ((hall.clean (fun _ _ _ _ _ _ _ => trivial)).writeInfo (r := newRev uuid ts tags) trivial).named

theorem launch_rev (s : Sys) (uuid : String) (ts : Int) (tags : Finset String) :
    onDisk (s.launch uuid ts tags).src.repo.files uuid = some (newRev uuid ts tags) := by
  show onDisk (s.src.repo.clean.files.set (newRev uuid ts tags).uuid ⟨false, newRev uuid ts tags⟩) _ = _
  rw [onDisk_set]
  exact if_pos rfl

/-- `runBackup` is the backup of the new revision; its exit code. -/
theorem runBackup_launch (env : Env) (af : Bool) (o : Rbd) (uuid : String) (ts : Int) (tags : Finset String) (s : Sys)
    (hn : Named s.src.repo.files) :
    (runBackup env af o uuid ts tags s).2 = (backup env af o (newRev uuid ts tags) (s.launch uuid ts tags)).2 ∧
    ((runBackup env af o uuid ts tags s).1 = 0 ↔
      (backup env af o (newRev uuid ts tags) (s.launch uuid ts tags)).1 = .ok true) ∧
    ((runBackup env af o uuid ts tags s).1 = 0 ∨ (runBackup env af o uuid ts tags s).1 = 1) := by
  have hmem := (C14_applies s hn uuid ts tags).2.2.1
  have hnd := (C14_applies s hn uuid ts tags).2.1
  have hfind : findByUuid (s.launch uuid ts tags).src.repo uuid = .ok (newRev uuid ts tags) := by
    unfold findByUuid
    cases hf : (s.launch uuid ts tags).src.repo.history.find? (fun r => decide (r.uuid = uuid)) with
    | none =>
      have := List.find?_eq_none.1 hf _ hmem
      simp [newRev] at this
    | some r =>
      have h1 := List.find?_some hf
      simp only [decide_eq_true_eq] at h1
      have h2 := eq_of_uuid hnd (List.mem_of_find?_eq_some hf) hmem (by rw [h1]; rfl)
      rw [h2]
  have hrun : runBackup env af o uuid ts tags s =
      match backup env af o (newRev uuid ts tags) (s.launch uuid ts tags) with
      | (.error _, s) => (1, s)
      | (.ok true, s) => (0, s)
      | (.ok false, s) => (1, s) := by
    show mainBackup env af o uuid _ = _
    unfold mainBackup
    change (match findByUuid (s.launch uuid ts tags).src.repo uuid with
      | .error _ => (1, s.launch uuid ts tags)
      | .ok r => match backup env af o r (s.launch uuid ts tags) with
        | (.error _, s) => (1, s)
        | (.ok true, s) => (0, s)
        | (.ok false, s) => (1, s)) = _
    rw [hfind]
  rw [hrun]
  generalize backup env af o (newRev uuid ts tags) (s.launch uuid ts tags) = g
  obtain ⟨g1, g2⟩ := g
  cases g1 with
  | error e => simp
  | ok b => cases b <;> simp

/-- The run created its snapshot, stored and compared the image without exception, the comparison found no difference, and the
snapshots could be listed. -/
def Verified (env : Env) (af : Bool) (o : Rbd) (uuid : String) (ts : Int) (tags : Finset String) (s : Sys) : Prop :=
  o.ready = true ∧ o.snapCreateFails = false ∧ s.ceph.snaps.has (snapName uuid) = false ∧ o.snapLsFails = false ∧
  (backupBody env af o (newRev uuid ts tags) s.ceph.image
    ((s.launch uuid ts tags).snapshot (newRev uuid ts tags))).1 = .ok true

theorem complete_iff_verified (env : Env) (af : Bool) (o : Rbd) (uuid : String) (ts : Int) (tags : Finset String)
    (s : Sys) (hn : Named s.src.repo.files) :
    (∃ x, onDisk (runBackup env af o uuid ts tags s).2.src.repo.files uuid = some x ∧ x.clean = true) ↔
      Verified env af o uuid ts tags s := by
  rw [(runBackup_launch env af o uuid ts tags s hn).1]
  have hinc : (newRev uuid ts tags).clean = false := by simp [newRev, Rev.clean, Dict.has, Dict.get?]
  have hr := launch_rev s uuid ts tags
  have hnot : ∀ P : Prop, ¬ P → ((∃ x, onDisk (s.launch uuid ts tags).src.repo.files uuid = some x ∧ x.clean = true) ↔ P) := by
    intro P hP
    rw [hr]
    simp only [Option.some.injEq, exists_eq_left', hinc]
    simp [hP]
  have hsn : (s.launch uuid ts tags).ceph = s.ceph := rfl
  unfold backup Verified
  rw [hsn]
  split
  · rename_i h; exact hnot _ (by simp [h])
  · split
    · rename_i h1 h
      refine hnot _ ?_
      rintro ⟨_, a, b, _⟩
      rcases h with h | h
      · rw [h] at a; cases a
      · have h' : s.ceph.snaps.has (snapName uuid) = true := h
        rw [h'] at b; cases b
    · rename_i h1 h2
      simp only [not_or, Bool.not_eq_true] at h2
      dsimp only
      have key := afterSnapshot_files (env := env) (o := o) (s := { (s.launch uuid ts tags).src with w := (backupBody env af o (newRev uuid ts tags) s.ceph.image
          ((s.launch uuid ts tags).snapshot (newRev uuid ts tags))).2 }) (r := newRev uuid ts tags)
        (launch_named hn uuid ts tags) rfl (by simp [newRev]) hr hinc
        (exitWith (backupBody env af o (newRev uuid ts tags) s.ceph.image
          ((s.launch uuid ts tags).snapshot (newRev uuid ts tags))).1
          (deleteOldSnapshots o af (s.launch uuid ts tags).src.repo
            ((s.launch uuid ts tags).snapshot (newRev uuid ts tags)).ceph.snaps).1)
      refine key.trans ?_
      have h3 : o.ready = true := by simpa using h1
      have h4 : s.ceph.snaps.has (snapName uuid) = false := h2.2
      cases hls : o.snapLsFails with
      | true => simp [exitWith, deleteOldSnapshots, hls]
      | false => simp [exitWith, deleteOldSnapshots, hls, h3, h2.1, h4]

/-- **C16** In any state: a run that exits with 0 leaves its revision complete. -/
theorem C16_success_complete_partial (env : Env) (af : Bool) (o : Rbd) (uuid : String) (ts : Int) (tags : Finset String)
    (s : Sys) (hn : Named s.src.repo.files) (h : (runBackup env af o uuid ts tags s).1 = 0) :
    ∃ x, onDisk (runBackup env af o uuid ts tags s).2.src.repo.files uuid = some x ∧ x.clean = true := by
  rw [complete_iff_verified env af o uuid ts tags s hn]
  rw [(runBackup_launch env af o uuid ts tags s hn).2.1] at h
  unfold backup at h
  have hsn : (s.launch uuid ts tags).ceph = s.ceph := rfl
  rw [hsn] at h
  split at h
  · cases h
  · split at h
    · cases h
    · rename_i h1 h2
      simp only [not_or, Bool.not_eq_true] at h2
      dsimp only at h
      have h3 : o.ready = true := by simpa using h1
      have hconc : ∀ s v, (conclude env o (newRev uuid ts tags) v s).1 = .ok true → v = true := by
        intro s v hv
        unfold conclude at hv
        split at hv
        · cases hv
        · simpa using hv
      have hres : exitWith (backupBody env af o (newRev uuid ts tags) s.ceph.image
          ((s.launch uuid ts tags).snapshot (newRev uuid ts tags))).1
          (deleteOldSnapshots o af (s.launch uuid ts tags).src.repo
            ((s.launch uuid ts tags).snapshot (newRev uuid ts tags)).ceph.snaps).1 = .ok true := by
        generalize exitWith (backupBody env af o (newRev uuid ts tags) s.ceph.image
          ((s.launch uuid ts tags).snapshot (newRev uuid ts tags))).1
          (deleteOldSnapshots o af (s.launch uuid ts tags).src.repo
            ((s.launch uuid ts tags).snapshot (newRev uuid ts tags)).ceph.snaps).1 = res at h
        unfold afterSnapshot at h
        split at h
        · rw [hconc _ _ h]
        · split at h
          · cases h
          · have := hconc _ _ h; cases this
        · cases h
      obtain ⟨e1, e2⟩ := exitWith_ok hres
      refine ⟨h3, h2.1, h2.2, ?_, e1⟩
      unfold deleteOldSnapshots at e2
      split at e2
      · cases e2
      · rename_i hls; simpa using hls

/-- **C16** In any state: a run whose comparison finds a difference, or that is ended by any exception while it works on the
image (storage errors included), leaves no complete revision behind. -/
theorem C16_failure_incomplete_partial (env : Env) (af : Bool) (o : Rbd) (uuid : String) (ts : Int) (tags : Finset String)
    (s : Sys) (hn : Named s.src.repo.files)
    (h : (backupBody env af o (newRev uuid ts tags) s.ceph.image
      ((s.launch uuid ts tags).snapshot (newRev uuid ts tags))).1 ≠ .ok true) :
    ¬ ∃ x, onDisk (runBackup env af o uuid ts tags s).2.src.repo.files uuid = some x ∧ x.clean = true := by
  rw [complete_iff_verified env af o uuid ts tags s hn]
  exact fun hv => h hv.2.2.2.2

theorem Good.exit_code {env : Env} {s : Sys} (hg : Good env s) (af : Bool) (o : Rbd)
    (uuid : String) (ts : Int) (tags : Finset String) (hu : Fresh s uuid)
    (hf : Faithful o s.ceph.snaps uuid s.ceph.image)
    (hcoll : CollFree env.H (runBackup env af o uuid ts tags s.connect).2.src.w.log) :
    (runBackup env af o uuid ts tags s.connect).1 = 0 ↔
      ∃ x, onDisk (runBackup env af o uuid ts tags s.connect).2.src.repo.files uuid = some x ∧ x.clean = true := by
  have hn : Named s.connect.src.repo.files := hg.disk.named
  refine ⟨C16_success_complete_partial env af o uuid ts tags s.connect hn, ?_⟩
  intro hc
  have hv := (complete_iff_verified env af o uuid ts tags s.connect hn).1 hc
  obtain ⟨v1, v2, v3, v4, v5⟩ := hv
  rw [(runBackup_launch env af o uuid ts tags s.connect hn).2.1]
  have hst := hg.prepared hu ts tags
  have hno := prepared_noSnap hu ts tags
  rw [(runBackup_launch env af o uuid ts tags s.connect hn).1] at hcoll
  change CollFree env.H (backup env af o (newRev uuid ts tags) (s.prepared uuid ts tags)).2.src.w.log at hcoll
  change (backup env af o (newRev uuid ts tags) (s.prepared uuid ts tags)).1 = _
  change (backupBody env af o (newRev uuid ts tags) s.ceph.image ((s.prepared uuid ts tags).snapshot (newRev uuid ts tags))).1 = .ok true at v5
  unfold backup at hcoll ⊢
  rw [if_neg (by simp [v1]), if_neg (by simp [v2, hno])] at hcoll ⊢
  dsimp only at hcoll ⊢
  rw [afterSnapshot_log] at hcoll
  have himg : (s.prepared uuid ts tags).ceph.image = s.ceph.image := rfl
  rw [himg] at hcoll ⊢
  obtain ⟨b1, b2, b3, b4⟩ := backupBody_spec hcoll af o hst hno hf (fun _ h => h)
  rw [himg] at b1 b2 b3 b4
  have hdel : (deleteOldSnapshots o af (s.prepared uuid ts tags).src.repo
      ((s.prepared uuid ts tags).snapshot (newRev uuid ts tags)).ceph.snaps).1 = .ok () := by
    simp [deleteOldSnapshots, v4]
  rw [v5, hdel]
  have hall := hst.disk_ext b1 b2 (img := s.ceph.image)
  have hst' := hall.mono (fun x hx => hx.1)
  simp only [exitWith, afterSnapshot]
  have hfin : (finished o (newRev uuid ts tags)).clean = true := by simp [finished, Rev.clean, Dict.has]
  refine conclude_ok (taken := (s.prepared uuid ts tags).ceph.taken.set (newRev uuid ts tags).uuid s.ceph.image) o _ true ?_ ?_
  · refine Disk.ofAll b1 (hst'.store ?_)
    intro _ _
    exact ⟨s.ceph.image, by
      show ((s.prepared uuid ts tags).ceph.taken.set uuid s.ceph.image).get? uuid = _
      simp, b4 true v5⟩
  · intro u x hx hl
    dsimp only at hx
    rw [if_pos rfl, store_files] at hx
    split at hx
    · cases hx; exact hfin
    · rename_i hne
      have hxu := onDisk_uuid hst.mem.disk.named hx
      exact hst.others x ((hst.mem.sync.mem x).2 (by rw [hxu]; exact hx)) (by rw [hxu]; exact hne) hl

/-- **C16** In an intact repository (every state reachable by the events of `Step`, see C13) the exit code is 0 exactly when the
revision is complete, that is, verified. -/
theorem C16_exit_code_partial (env : Env) (s0 s : Sys) (h0 : Initial s0) (hs : Steps env s0 s) (af : Bool) (o : Rbd)
    (uuid : String) (ts : Int) (tags : Finset String) (hu : Fresh s uuid)
    (hf : Faithful o s.ceph.snaps uuid s.ceph.image)
    (hcoll : CollFree env.H (runBackup env af o uuid ts tags s.connect).2.src.w.log) :
    (runBackup env af o uuid ts tags s.connect).1 = 0 ↔
      ∃ x, onDisk (runBackup env af o uuid ts tags s.connect).2.src.repo.files uuid = some x ∧ x.clean = true :=
  ((Good.initial (env := env) h0).steps hcoll hs (runBackup_log env af o uuid ts tags s.connect)).exit_code af o uuid ts tags hu hf hcoll

end Verif.Backup
