import Verif.Props.Verify
/-!
# Properties C16 (false part), C17 and C18: outcomes of a backup
-/
namespace Verif.Backup
open Verif Verif.Chunked Verif.Spec Verif.Rbd Verif.Repo Verif.Files Verif.Diff

/-! ### C17 -/

/-- What the verification at the end of a backup does to the metadata: at most one revision, a distrusted local one, is
removed or becomes verified. -/
theorem verifyDistrusted_one (env : Env) (o : Rbd) (s : Src) (hn : Named s.repo.files) :
    ∃ v, (∀ u, u ≠ v → onDisk (verifyDistrusted env o s).2.repo.files u = onDisk s.repo.files u) ∧
      (onDisk (verifyDistrusted env o s).2.repo.files v = onDisk s.repo.files v ∨
       onDisk (verifyDistrusted env o s).2.repo.files v = none ∨
       ∃ x, onDisk (verifyDistrusted env o s).2.repo.files v = some x ∧ x.trust = .verified) ∧
      ∀ x, onDisk s.repo.files v = some x → x.server ≠ "" →
        onDisk (verifyDistrusted env o s).2.repo.files v = onDisk s.repo.files v := by
  unfold verifyDistrusted
  cases hf : (s.repo.scan.getHistory true true).reverse.find? (fun r => decide (r.trust = .distrusted)) with
  | none => exact ⟨"", fun _ _ => rfl, .inl rfl, fun _ _ _ => rfl⟩
  | some r =>
    obtain ⟨h1, _, h3⟩ := mem_getHistory.1 (List.mem_reverse.1 (List.mem_of_find?_eq_some hf))
    have h4 := (Repo.scan_mem hn r).1 h1
    refine ⟨r.uuid, fun u hu => verify_files hu, ?_, ?_⟩
    · dsimp only
      unfold Src.verify Src.verifyMark
      cases hc : verifyCandidates o.order { s with repo := s.repo.scan } r with
      | error e => exact .inl rfl
      | ok cand =>
        dsimp only
        cases hb : firstBad env s.w cand with
        | some x =>
          right; left
          dsimp only
          rw [gc_repo]
          dsimp only
          rw [remove_local h3, drop_files, if_pos rfl]
        | none =>
          right; right
          dsimp only
          rw [if_neg (by simp [h3])]
          dsimp only
          rw [gc_repo]
          dsimp only
          rw [store_files, if_pos rfl]
          exact ⟨_, rfl, rfl⟩
    · intro x hx hs
      rw [h4] at hx
      cases hx
      exact absurd h3 hs

/-- **C17** A run that is ended by a backend error while it reads or stores data: afterwards every local revision is
distrusted, except possibly one which the run has verified; the new revision is gone; the metadata of
other servers' revisions is unchanged. `s` is the state in which `backy-rbd backup` works (C14_applies). -/
theorem C17_distrusted_partial (env : Env) (af : Bool) (o : Rbd) (s : Sys) (hn : Named s.src.repo.files) (r : Rev)
    (hrd : r ∈ s.src.repo.scan.history) (hrl : r.server = "") (hready : o.ready = true)
    (hsnap : o.snapCreateFails = false ∧ s.ceph.snaps.has (snapName r.uuid) = false) (hls : o.snapLsFails = false)
    (hbody : (backupBody env af o r s.connect.ceph.image (s.connect.snapshot r)).1 = .error .backend) :
    ∃ v, (∀ u x, onDisk (backup env af o r s.connect).2.src.repo.files u = some x → x.server = "" →
        x.trust = .distrusted ∨ (u = v ∧ x.trust = .verified)) ∧
      onDisk (backup env af o r s.connect).2.src.repo.files r.uuid = none ∧
      (backup env af o r s.connect).1 ≠ .ok true ∧
      ∀ u x, onDisk s.src.repo.files u = some x → x.server ≠ "" →
        onDisk (backup env af o r s.connect).2.src.repo.files u = some x := by
  have hloc : ∀ x ∈ s.connect.src.repo.localHistory, x.server = "" := fun x hx => (mem_localHistory.1 hx).2
  have hnd : (s.connect.src.repo.localHistory.map Rev.uuid).Nodup :=
    (Repo.scan_nodup s.src.repo).sublist (List.filter_sublist.map _)
  obtain ⟨repo', hd⟩ := distrust_local s.connect.src.repo.localHistory s.connect.src.repo hloc
  have hdf := distrust_files s.connect.src.repo.localHistory s.connect.src.repo hloc hnd
  rw [hd] at hdf
  have hn' : Named repo'.files := by
    have := distrust_named s.connect.src.repo.localHistory s.connect.src.repo hn
    rw [hd] at this; exact this
  have hrm := (Repo.scan_mem hn r).1 hrd
  have hbk : backup env af o r s.connect = (((conclude env o r false
      ⟨repo', (backupBody env af o r s.connect.ceph.image (s.connect.snapshot r)).2⟩).1),
      ⟨(conclude env o r false ⟨repo', (backupBody env af o r s.connect.ceph.image (s.connect.snapshot r)).2⟩).2,
        { (s.connect.snapshot r).ceph with snaps := (deleteOldSnapshots o af s.connect.src.repo (s.connect.snapshot r).ceph.snaps).2 }⟩) := by
    unfold backup
    rw [if_neg (by simp [hready]), if_neg (by
      have : s.connect.ceph.snaps.has (snapName r.uuid) = false := hsnap.2
      simp [hsnap.1, this])]
    have hdel : (deleteOldSnapshots o af s.connect.src.repo (s.connect.snapshot r).ceph.snaps).1 = .ok () := by
      simp [deleteOldSnapshots, hls]
    simp only [hbody, hdel, exitWith, afterSnapshot, hd]
  rw [hbk]
  have hc : ∀ w, (conclude env o r false ⟨repo', w⟩).2 = (verifyDistrusted env o ⟨repo'.remove r, w⟩).2 ∧
      (conclude env o r false ⟨repo', w⟩).1 ≠ .ok true := by
    intro w
    unfold conclude
    simp only [Bool.false_eq_true, if_false]
    generalize verifyDistrusted env o ⟨repo'.remove r, w⟩ = g
    obtain ⟨g1, g2⟩ := g
    cases g1 <;> simp
  generalize (backupBody env af o r s.connect.ceph.image (s.connect.snapshot r)).2 = w
  obtain ⟨hc1, hc2⟩ := hc w
  dsimp only
  rw [hc1]
  have hnr : Named (repo'.remove r).files := by rw [remove_local hrl]; exact hn'.erase _
  obtain ⟨v, v1, v2, v3⟩ := verifyDistrusted_one env o ⟨repo'.remove r, w⟩ hnr
  have hrem : ∀ u, onDisk (repo'.remove r).files u = if u = r.uuid then none else onDisk repo'.files u := by
    intro u; rw [remove_local hrl, drop_files]
  have hlocal : ∀ u x, onDisk (repo'.remove r).files u = some x → x.server = "" → x.trust = .distrusted := by
    intro u x hx hl
    rw [hrem] at hx
    split at hx
    · cases hx
    · have := hdf u
      dsimp only at this
      rw [this] at hx
      split at hx
      · cases hx; rfl
      · rename_i hno
        have hux : x.uuid = u := onDisk_uuid hn hx
        have hxm : x ∈ s.connect.src.repo.localHistory :=
          mem_localHistory.2 ⟨(Repo.scan_mem hn x).2 (by rw [hux]; exact hx), hl⟩
        have := List.find?_eq_none.1 hno x hxm
        simp [hux] at this
  have hremote : ∀ u x, onDisk s.src.repo.files u = some x → x.server ≠ "" → onDisk (repo'.remove r).files u = some x := by
    intro u x hx hl
    have hux : x.uuid = u := onDisk_uuid hn hx
    have hxm := (Repo.scan_mem hn x).2 (by rw [hux]; exact hx)
    rw [hrem, if_neg ?_]
    · have := hdf u
      dsimp only at this
      rw [this]
      split
      · rename_i y hy
        have h1 := List.find?_some hy
        simp only [decide_eq_true_eq] at h1
        obtain ⟨h2, h3⟩ := mem_localHistory.1 (List.mem_of_find?_eq_some hy)
        have := eq_of_uuid (Repo.scan_nodup _) h2 hxm (by rw [h1, hux])
        subst this
        exact absurd h3 hl
      · exact hx
    · rintro rfl
      rw [hrm] at hx
      cases hx
      exact hl hrl
  refine ⟨v, ?_, ?_, hc2, ?_⟩
  · intro u x hx hl
    by_cases huv : u = v
    · subst huv
      rcases v2 with h | h | ⟨y, h, hy⟩
      · rw [h] at hx; exact .inl (hlocal u x hx hl)
      · rw [h] at hx; cases hx
      · rw [h] at hx; cases hx; exact .inr ⟨rfl, hy⟩
    · rw [v1 u huv] at hx
      exact .inl (hlocal u x hx hl)
  · refine (verifyDistrusted_files hnr ?_).trans ?_
    · intro x hx
      dsimp only at hx
      rw [hrem, if_pos rfl] at hx; cases hx
    · dsimp only
      rw [hrem, if_pos rfl]
  · intro u x hx hl
    have h1 := hremote u x hx hl
    by_cases huv : u = v
    · subst huv; rw [v3 x h1 hl]; exact h1
    · rw [v1 u huv]; exact h1

/-- An environment in which the second backup needs the damaged chunk: a diff that changes one byte in it. -/
def exPartialRbd (fails : Bool) : Rbd :=
  { idealRbd [7, 0, 0, 0, 2, 2, 2, 2] [0] with
    diffOut := fun _ => (⟨[.size 8], [.data 0 [7]]⟩ : Diff).encode, snapLsFails := fails }

/-- The hypotheses of C17 can be met: the image is changed in the damaged chunk. -/
example : (backupBody Test.env false (exPartialRbd false) (newRev "c" 30 ∅) [7, 0, 0, 0, 2, 2, 2, 2]
    ((exCorrupt.launch "c" 30 ∅).connect.snapshot (newRev "c" 30 ∅))).1 = .error .backend ∧
    newRev "c" 30 ∅ ∈ (exCorrupt.launch "c" 30 ∅).src.repo.scan.history := by decide +kernel

/-- **C17** is false of the code: the backend error is replaced by the exception of a failing `rbd snap ls` when the snapshot is
left; no revision is distrusted. -/
theorem C17_false_masked_error : ∃ (s : Sys) (o : Rbd),
    (backupBody Test.env false o (newRev "c" 30 ∅) s.ceph.image ((s.launch "c" 30 ∅).snapshot (newRev "c" 30 ∅))).1 =
      .error .backend ∧
    (onDisk (runBackup Test.env false o "c" 30 ∅ s).2.src.repo.files "a").map Rev.trust = some .trusted ∧
    (onDisk (runBackup Test.env false o "c" 30 ∅ s).2.src.repo.files "b").map Rev.trust = some .trusted :=
  ⟨exCorrupt, exPartialRbd true, by decide +kernel, by decide +kernel, by decide +kernel⟩

/-! ### C16: the full statement is false -/

/-- `exSecond` with revision "a" distrusted and its mapping file lost. -/
def exLost : Sys :=
  { exSecond with src := { exSecond.src with
      repo := (exSecond.connect.src.repo.distrust [finished (idealRbd [] []) (newRev "a" 10 {"daily"})]).2,
      w := { exSecond.src.w with metas := exSecond.src.w.metas.erase "a" } } }

/-- **C16** is false of the code: the backup is verified and its revision complete, but the verification of another
revision at the end raises and the exit code is 1. -/
theorem C16_false_exit_code : ∃ (s : Sys) (o : Rbd),
    Verified Test.env false o "c" 30 ∅ s.connect ∧
    (onDisk (runBackup Test.env false o "c" 30 ∅ s.connect).2.src.repo.files "c").map Rev.clean = some true ∧
    (runBackup Test.env false o "c" 30 ∅ s.connect).1 = 1 :=
  ⟨exLost, idealRbd [0, 0, 0, 0, 2, 2, 2, 2] [1], ⟨rfl, rfl, by decide +kernel, rfl, by decide +kernel⟩,
    by decide +kernel, by decide +kernel⟩

/-! ### C18 -/

theorem snapName_backy {u n : String} (h : startsWith n "backy-" = false) : n ≠ snapName u := by
  rintro rfl
  rw [startsWith_snapName] at h; cases h

/-- **C18** Whatever happens during a backup, snapshots of other owners are not touched. -/
theorem C18_foreign_untouched_partial (env : Env) (af : Bool) (o : Rbd) (uuid : String) (ts : Int) (tags : Finset String)
    (s : Sys) (n : String) (hn : startsWith n "backy-" = false) :
    (runBackup env af o uuid ts tags s).2.ceph.snaps.get? n = s.ceph.snaps.get? n := by
  have hdel : ∀ repo snaps, (deleteOldSnapshots o af repo snaps).2.get? n = snaps.get? n := by
    intro repo snaps
    unfold deleteOldSnapshots
    split
    · rfl
    · rw [Dict.get?_filter (p := fun x => !(isOld (keepSnapshot af repo) x && !o.snapRmFails x)), if_pos]
      simp [isOld, hn]
  have hb : ∀ (r : Rev) (x : Sys), x.ceph.snaps = s.ceph.snaps →
      (backup env af o r x).2.ceph.snaps.get? n = s.ceph.snaps.get? n := by
    intro r x hx
    unfold backup
    split
    · rw [hx]
    · split
      · rw [hx]
      · show (deleteOldSnapshots o af _ (x.ceph.snaps ++ [(snapName r.uuid, x.ceph.image)])).2.get? n = _
        rw [hdel, get?_append_single, if_neg (snapName_backy hn), hx]
        simp
  unfold runBackup mainBackup
  split
  · rfl
  · rename_i r hr
    have := hb r (Sys.connect { s with src := { s.src with repo := s.src.repo.clean.writeInfo (newRev uuid ts tags) } }) rfl
    split <;> (rename_i heq; rw [heq] at this; exact this)

theorem stripBacky_id (fuel : Nat) (l : List Char) (h : '-' ∉ l) : stripBacky fuel l = l := by
  induction fuel generalizing l with
  | zero => rfl
  | succ fuel ih =>
    cases l with
    | nil => rfl
    | cons c t =>
      unfold stripBacky
      rw [if_neg, ih t (by simp at h; exact h.2)]
      intro hp
      rw [List.isPrefixOf_iff_prefix] at hp
      exact h (hp.subset (by decide))

/-- Uuids are made of letters and digits (`shortuuid`), so the name of a snapshot determines the uuid. -/
theorem snapUuid_snapName {u : String} (h : '-' ∉ u.toList) : snapUuid (snapName u) = u := by
  have e : (snapName u).toList = "backy-".toList ++ u.toList := by simp [snapName]
  unfold snapUuid
  rw [e]
  have e2 : "backy-".toList = ['b', 'a', 'c', 'k', 'y', '-'] := by decide
  rw [e2]
  simp only [List.cons_append, List.nil_append, List.length_cons]
  unfold stripBacky
  rw [if_pos (by rw [List.isPrefixOf_iff_prefix, e2]; exact ⟨u.toList, by simp⟩)]
  simp only [List.drop_succ_cons, List.drop_zero]
  rw [stripBacky_id _ _ h]
  simp

theorem getLast?_of_max {l : List Rev} {r : Rev} (hr : r ∈ l) (hs : l.Pairwise (fun a b => a.ts ≤ b.ts))
    (hmax : ∀ x ∈ l, x ≠ r → x.ts < r.ts) : l.getLast? = some r := by
  have hne : l ≠ [] := List.ne_nil_of_mem hr
  have hl := List.dropLast_append_getLast hne
  rw [List.getLast?_eq_some_getLast hne]
  by_contra hc
  have hy : l.getLast hne ≠ r := fun h => hc (by rw [h])
  have h1 := hmax _ (List.getLast_mem hne) hy
  rw [← hl] at hr hs
  rw [List.pairwise_append] at hs
  rcases List.mem_append.1 hr with h | h
  · have := hs.2.2 r h (l.getLast hne) (by simp)
    omega
  · exact hy (List.mem_singleton.1 h).symm

/-- **C18** A successful backup that is the newest local revision keeps its own snapshot (unless full backups are forced), so that the
next backup can be incremental. -/
theorem C18_newest_kept_partial (env : Env) (o : Rbd) (uuid : String) (ts : Int) (tags : Finset String) (s : Sys)
    (hn : Named s.src.repo.files) (hu : '-' ∉ uuid.toList)
    (hts : ∀ x ∈ (s.launch uuid ts tags).src.repo.history, x.server = "" → x.uuid ≠ uuid → x.ts < ts)
    (h : (runBackup env false o uuid ts tags s).1 = 0) :
    (runBackup env false o uuid ts tags s).2.ceph.snaps.get? (snapName uuid) = some s.ceph.image := by
  have hv := (complete_iff_verified env false o uuid ts tags s hn).1 (C16_success_complete_partial env false o uuid ts tags s hn h)
  obtain ⟨v1, v2, v3, v4, v5⟩ := hv
  rw [(runBackup_launch env false o uuid ts tags s hn).1]
  have hsn : (s.launch uuid ts tags).ceph = s.ceph := rfl
  unfold backup
  rw [if_neg (by simp [v1]), if_neg (by
    rw [hsn]
    have : s.ceph.snaps.has (snapName (newRev uuid ts tags).uuid) = false := v3
    simp [v2, this])]
  show (deleteOldSnapshots o false (s.launch uuid ts tags).src.repo
    (s.ceph.snaps ++ [(snapName uuid, s.ceph.image)])).2.get? (snapName uuid) = _
  have hkeep : keepSnapshot false (s.launch uuid ts tags).src.repo = some uuid := by
    unfold keepSnapshot
    obtain ⟨a1, a2, a3, a4⟩ := C14_applies s hn uuid ts tags
    rw [getLast?_of_max (r := newRev uuid ts tags)]
    · rfl
    · exact mem_localHistory.2 ⟨a3, rfl⟩
    · exact a1.sublist List.filter_sublist
    · intro x hx hne
      obtain ⟨x1, x2⟩ := mem_localHistory.1 hx
      exact hts x x1 x2 (fun he => hne (eq_of_uuid a2 x1 a3 he))
  unfold deleteOldSnapshots
  rw [if_neg (by simp [v4]), hkeep]
  rw [Dict.get?_filter (p := fun x => !(isOld (some uuid) x && !o.snapRmFails x)), if_pos]
  · rw [get?_append_single]
    have : s.ceph.snaps.get? (snapName uuid) = none := by
      simpa [Dict.has] using v3
    rw [this]; simp
  · simp [isOld, snapUuid_snapName hu]

/-- An environment in which `rbd export-diff` writes the wrong bytes. -/
def exWrongRbd : Rbd :=
  { idealRbd [5, 5, 5, 5, 5, 5, 5, 5] [1] with diffOut := fun _ => (wholeDiff [0, 0, 0, 0, 9, 9, 9, 9]).encode }

/-- **C18** is false of the code: a backup fails its verification, its revision is removed, but the snapshot of
the newest valid revision has been deleted, so the next backup has no base. -/
theorem C18_false_failed_backup : ∃ (s : Sys) (o : Rbd),
    Steps Test.env exNew s ∧ Fresh s "b" ∧
    (onDisk s.src.repo.files "a").map (fun r => (r.clean, r.trust)) = some (true, .trusted) ∧
    s.ceph.snaps.has (snapName "a") = true ∧
    (runBackup Test.env false o "b" 20 ∅ s.connect).1 = 1 ∧
    (runBackup Test.env false o "b" 20 ∅ s.connect).2.src.repo.files.keys = ["a"] ∧
    (runBackup Test.env false o "b" 20 ∅ s.connect).2.ceph.snaps.has (snapName "a") = false ∧
    cephGetParent false (runBackup Test.env false o "b" 20 ∅ s.connect).2.ceph.snaps false
      (((runBackup Test.env false o "b" 20 ∅ s.connect).2.prepared "c" 30 ∅).src.repo) (newRev "c" 30 ∅) = .ok none :=
  ⟨exChanged, exWrongRbd, exChanged_steps, exChanged_fresh, by decide +kernel, by decide +kernel, by decide +kernel,
    by decide +kernel, by decide +kernel, by decide +kernel⟩

/-- The hypotheses of C18 hold in the example history. -/
example : (∀ x ∈ (exChanged.connect.launch "b" 20 {"daily"}).src.repo.history, x.server = "" → x.uuid ≠ "b" → x.ts < 20) ∧
    exSecond.ceph.snaps.get? (snapName "b") = some [0, 0, 0, 0, 2, 2, 2, 2] := by decide +kernel

/-- C17_distrusted_partial: the backup that meets the damaged chunk. -/
example := C17_distrusted_partial Test.env false (exPartialRbd false) (exCorrupt.launch "c" 30 ∅) (launch_named (s := exCorrupt) (show Named exSecond.connect.src.repo.files from exSecond_named) _ _ _) (newRev "c" 30 ∅)
  (by decide +kernel) rfl rfl ⟨rfl, by decide +kernel⟩ rfl (by decide +kernel)

/-- C18_foreign_untouched_partial: the snapshot "nightly". -/
example := C18_foreign_untouched_partial Test.env false (idealRbd [0, 0, 0, 0, 2, 2, 2, 2] [1]) "b" 20 {"daily"} exChanged.connect
  "nightly" (by decide +kernel)

/-- C18_newest_kept_partial: the second backup. -/
example := C18_newest_kept_partial Test.env (idealRbd [0, 0, 0, 0, 2, 2, 2, 2] [1]) "b" 20 {"daily"} exChanged.connect exChanged_named
  (by decide +kernel) (by decide +kernel) (by decide +kernel)

end Verif.Backup
