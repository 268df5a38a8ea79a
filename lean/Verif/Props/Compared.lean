import Verif.Props.Killed
/-!
# Property C16: what the comparison at the end of a backup guarantees

Here nothing at all is assumed about what `rbd export` and `rbd export-diff` write: the transferred image may have nothing in
common with the snapshot.
-/
namespace Verif.Backup
open Verif Verif.Chunked Verif.Spec Verif.Rbd Verif.Repo Verif.Files Verif.Diff

/-- Whatever is transferred, the new image has some content; if the backup is accepted, this content agrees with the snapshot on
every block that was examined before the time limit. -/
theorem backupBody_any {env : Env} {L : List Bytes} (hL : CollFree env.H L) (af : Bool) (o : Rbd) {s : Sys} {r : Rev}
    (h : Start env s r) (hno : s.ceph.snaps.has (snapName r.uuid) = false)
    (hlog : (backupBody env af o r s.ceph.image (s.snapshot r)).2.log ⊆ L) :
    WOK env (backupBody env af o r s.ceph.image (s.snapshot r)).2 ∧
    ExtN r.uuid s.src.w (backupBody env af o r s.ceph.image (s.snapshot r)).2 ∧
    ∀ v, (backupBody env af o r s.ceph.image (s.snapshot r)).1 = .ok v →
      ∃ c, OnDisk env (backupBody env af o r s.ceph.image (s.snapshot r)).2 r.uuid c ∧
        (v = true → ∀ k b, o.sample[k]? = some b → (∀ j ≤ k, o.expired j = false) →
          (s.ceph.image.drop (b * env.cs)).take env.cs = (c.drop (b * env.cs)).take env.cs) := by
  unfold backupBody at hlog ⊢
  have hsrc : (s.snapshot r).src = s.src := rfl
  rw [hsrc] at hlog ⊢
  cases hp : cephGetParent af (s.snapshot r).ceph.snaps o.infoFails s.src.repo r with
  | error e =>
    exact ⟨h.mem.disk.wok, ExtN.refl _ _, fun v hv => (by cases hv)⟩
  | ok parent =>
    rw [hp] at hlog
    dsimp only at hlog ⊢
    obtain ⟨c0, hc⟩ := h.parent hno hp
    have hwl : (writePhase env o r.uuid parent s.src).2.log ⊆ L := by
      split at hlog
      · rename_i heq; rw [heq]; exact hlog
      · rename_i w heq; rw [heq]; rw [verifyPhase_log] at hlog; exact hlog
    obtain ⟨w1, w2, w3, _⟩ := writePhase_spec hL o h.mem.disk.wok h.fresh (fun p hp => (hc p hp).1) hwl
    have hcont : ∃ c, OnDisk env (writePhase env o r.uuid parent s.src).2 r.uuid c := by
      obtain ⟨f, w, h1, h2, h3, h4, h5⟩ := openWrite_ok h.mem.disk.wok h.fresh (fun p hp => (hc p hp).1)
      unfold writePhase at hwl ⊢
      rw [h1] at hwl ⊢
      dsimp only at hwl ⊢
      have hlt : (transfer env o r.uuid parent f).2.w.log ⊆ L := fun x hx => hwl (closing_log env _ hx)
      have hk := transfer_any hL o r.uuid parent ⟨_, _, _, h5⟩ hlt
      obtain ⟨c1, pos1, r1, hr⟩ := hk.wr
      obtain ⟨_, _, k3, _⟩ := closing_ok hL hr hwl
      rw [hk.name.trans h2] at k3
      exact ⟨c1, k3⟩
    obtain ⟨c, hcd⟩ := hcont
    generalize hg : writePhase env o r.uuid parent s.src = g at *
    obtain ⟨g1, w⟩ := g
    cases g1 with
    | error e => exact ⟨w1, w2, fun v hv => (by cases hv)⟩
    | ok u =>
      have ht := verifyPhase_ticked env o r.uuid s.ceph.image w
      dsimp only at w1 w2 hcd hwl ⊢
      refine ⟨Ticked.wok ht w1, w2.trans (Ticked.ext ht _), ?_⟩
      intro v hv
      refine ⟨c, Ticked.onDisk ht hcd, ?_⟩
      rintro rfl k b hk htime
      unfold verifyPhase at hv
      cases hf : File.open w r.uuid rb with
      | error e => rw [hf] at hv; cases hv
      | ok f =>
        rw [hf] at hv
        dsimp only at hv
        split at hv
        · cases hv
        · generalize hq : filesAreRoughlyEqual env env.cs o.expired o.sample s.ceph.image f = q at *
          obtain ⟨q1, q2⟩ := q
          cases q1 with
          | error e => cases hv
          | ok x =>
            obtain ⟨res, l⟩ := x
            dsimp only at hv
            split at hv
            · cases hv
            · cases hv
              exact C23_accepted_sound_partial env w r.uuid s.ceph.image c w1 hcd (hL.mono hwl) env.cs
                o.expired o.sample f hf l (by rw [hq]) k b hk htime

/-- **C16** (`_partial`: see `C16_false_exit_code`) In every reachable state, whatever `rbd` exports: if the run leaves its
revision complete, in particular if it exits with 0, then the revision restores to a content that agrees with the snapshot on
every block that the comparison examined before its time limit.  In other words: a backup whose stored image differs from the
snapshot in an examined block leaves no complete revision and does not exit with 0. -/
theorem C16_complete_agrees_partial (env : Env) (s0 s : Sys) (h0 : Initial s0) (hs : Steps env s0 s) (af : Bool) (o : Rbd)
    (uuid : String) (ts : Int) (tags : Finset String) (hu : Fresh s uuid)
    (hcoll : CollFree env.H (runBackup env af o uuid ts tags s.connect).2.src.w.log)
    (hdone : (runBackup env af o uuid ts tags s.connect).1 = 0 ∨
      ∃ x, onDisk (runBackup env af o uuid ts tags s.connect).2.src.repo.files uuid = some x ∧ x.clean = true) :
    ∃ x c, onDisk (runBackup env af o uuid ts tags s.connect).2.src.repo.files uuid = some x ∧ x.clean = true ∧
      (∀ target, restore env (runBackup env af o uuid ts tags s.connect).2.src.w x target = (.ok (), some c)) ∧
      ∀ k b, o.sample[k]? = some b → (∀ j ≤ k, o.expired j = false) →
        (s.ceph.image.drop (b * env.cs)).take env.cs = (c.drop (b * env.cs)).take env.cs := by
  have hlog0 : s.src.w.log ⊆ (runBackup env af o uuid ts tags s.connect).2.src.w.log := runBackup_log env af o uuid ts tags s.connect
  have hg := (Good.initial (env := env) h0).steps hcoll hs hlog0
  have hn : Named s.connect.src.repo.files := hg.disk.named
  have hc : ∃ x, onDisk (runBackup env af o uuid ts tags s.connect).2.src.repo.files uuid = some x ∧ x.clean = true := by
    rcases hdone with h | h
    · exact C16_success_complete_partial env af o uuid ts tags s.connect hn h
    · exact h
  obtain ⟨v1, v2, v3, v4, v5⟩ := (complete_iff_verified env af o uuid ts tags s.connect hn).1 hc
  obtain ⟨x, x1, x2⟩ := hc
  have hst := hg.prepared hu ts tags
  have hno := prepared_noSnap hu ts tags
  rw [(runBackup_launch env af o uuid ts tags s.connect hn).1] at hcoll x1 ⊢
  change CollFree env.H (backup env af o (newRev uuid ts tags) (s.prepared uuid ts tags)).2.src.w.log at hcoll
  change onDisk (backup env af o (newRev uuid ts tags) (s.prepared uuid ts tags)).2.src.repo.files uuid = some x at x1
  change ∃ x c, onDisk (backup env af o (newRev uuid ts tags) (s.prepared uuid ts tags)).2.src.repo.files uuid = some x ∧ _ ∧
    (∀ target, restore env (backup env af o (newRev uuid ts tags) (s.prepared uuid ts tags)).2.src.w x target = (.ok (), some c)) ∧ _
  change (backupBody env af o (newRev uuid ts tags) s.ceph.image ((s.prepared uuid ts tags).snapshot (newRev uuid ts tags))).1 = .ok true at v5
  unfold backup at hcoll x1 ⊢
  rw [if_neg (by simp [v1]), if_neg (by simp [v2, hno])] at hcoll x1 ⊢
  dsimp only at hcoll x1 ⊢
  have hcoll' := hcoll
  rw [afterSnapshot_log] at hcoll'
  have himg : (s.prepared uuid ts tags).ceph.image = s.ceph.image := rfl
  rw [himg] at hcoll hcoll' x1 ⊢
  obtain ⟨b1, b2, b3⟩ := backupBody_any hcoll' af o hst hno (fun _ h => h)
  rw [himg] at b1 b2 b3
  obtain ⟨c, c1, c2⟩ := b3 true v5
  have hst' : Start env { s.prepared uuid ts tags with ceph := { (s.prepared uuid ts tags).ceph with image := c } } (newRev uuid ts tags) :=
    ⟨hst.mem, hst.snaps, hst.rev, hst.srv, hst.trust, hst.incomplete, hst.fresh, hst.others⟩
  have hfin := (afterSnapshot_disk o hst' b1 b2
    (exitWith (backupBody env af o (newRev uuid ts tags) s.ceph.image ((s.prepared uuid ts tags).snapshot (newRev uuid ts tags))).1
      (deleteOldSnapshots o af (s.prepared uuid ts tags).src.repo
        ((s.prepared uuid ts tags).snapshot (newRev uuid ts tags)).ceph.snaps).1) (fun _ _ => c1)).1
  have hdel : (deleteOldSnapshots o af (s.prepared uuid ts tags).src.repo
      ((s.prepared uuid ts tags).snapshot (newRev uuid ts tags)).ceph.snaps).1 = .ok () := by
    simp [deleteOldSnapshots, v4]
  have hres : exitWith (backupBody env af o (newRev uuid ts tags) s.ceph.image
      ((s.prepared uuid ts tags).snapshot (newRev uuid ts tags))).1
      (deleteOldSnapshots o af (s.prepared uuid ts tags).src.repo
        ((s.prepared uuid ts tags).snapshot (newRev uuid ts tags)).ceph.snaps).1 = .ok true := by rw [v5, hdel]; rfl
  have hxs : x.server = "" := by
    rw [hres] at x1
    simp only [afterSnapshot] at x1
    have := conclude_files (env := env) (o := o) (s := { (s.prepared uuid ts tags).src with w := (backupBody env af o (newRev uuid ts tags)
      s.ceph.image ((s.prepared uuid ts tags).snapshot (newRev uuid ts tags))).2 }) (launch_named hn uuid ts tags)
      (r := newRev uuid ts tags) rfl (by simp [newRev]) true
    change onDisk _ uuid = _ at this
    rw [this] at x1
    simp only [if_true, Option.some.injEq] at x1
    rw [← x1]; rfl
  have hxu : x.uuid = uuid := onDisk_uuid hfin.named x1
  obtain ⟨c', d1, d2⟩ := hfin.good _ _ x1 hxs x2
  rw [hxu] at d1 d2
  have : c' = c := by
    have e : ((s.prepared uuid ts tags).ceph.taken.set uuid c).get? uuid = some c := by simp
    exact Option.some.inj (d1.symm.trans e)
  subst this
  refine ⟨x, c', x1, x2, ?_, c2 rfl⟩
  exact C20_restore_file env _ x c' hfin.wok (by rw [hxu]; exact d2) hcoll

/-- An export with a wrong second block: rejected if that block is examined; if only the first block is examined the hypotheses of
the theorem are met (exit code 0), and the restored content indeed agrees on that block only. -/
example : Initial exNew ∧ Fresh exNew "a" ∧
    (runBackup Test.env false (idealRbd [0, 0, 0, 0, 9, 9, 9, 9] [1]) "a" 10 {"daily"} exNew.connect).1 = 1 ∧
    (runBackup Test.env false (idealRbd [0, 0, 0, 0, 9, 9, 9, 9] [0]) "a" 10 {"daily"} exNew.connect).1 = 0 ∧
    (restore Test.env (runBackup Test.env false (idealRbd [0, 0, 0, 0, 9, 9, 9, 9] [0]) "a" 10 {"daily"} exNew.connect).2.src.w
      (newRev "a" 10 ∅) none).2 = some [0, 0, 0, 0, 9, 9, 9, 9] :=
  ⟨exNew_initial, exFirst_fresh, by decide +kernel, by decide +kernel, by decide +kernel⟩

/-- C16_complete_agrees_partial: the second backup. -/
example := C16_complete_agrees_partial Test.env exNew exChanged exNew_initial exChanged_steps false
  (idealRbd [0, 0, 0, 0, 2, 2, 2, 2] [1]) "b" 20 {"daily"} exChanged_fresh (Test.collFree _) (.inl (by decide +kernel))

end Verif.Backup
