import Verif.Props.Commands
import Verif.Props.Record
import Verif.Props.BackupRuns
/-!
# Property C106: `backy backup` in the foreground
-/
namespace Verif.Commands
open Verif Verif.Chunked Verif.Spec Verif.Rbd Verif.Repo Verif.Files Verif.Backup Verif.Cli Verif.Repo.Spec

/-- Every tag is a manual one or one of the schedule. -/
def Known (sch : Schedule) (tags : Finset String) : Prop := ∀ t ∈ tags, isManual t = true ∨ t ∈ sch.keys

theorem validateTags_ok {sch : Schedule} {tags : Finset String} (h : Known sch tags) : validateTags sch tags = .ok () := by
  unfold validateTags
  rw [if_pos]
  rw [Finset.filter_eq_empty_iff]
  intro t ht
  simp only [scheduleTags, Finset.mem_filter] at ht
  rcases h t ht.1 with h | h
  · rw [ht.2] at h; cases h
  · exact not_not.2 h

theorem validateTags_error {sch : Schedule} {tags : Finset String} (h : ¬ Known sch tags) : validateTags sch tags = .error .runtime := by
  unfold validateTags
  rw [if_neg]
  intro he
  rw [Finset.filter_eq_empty_iff] at he
  apply h
  intro t ht
  by_cases hm : isManual t = true
  · exact .inl hm
  · refine .inr (not_not.1 (he ?_))
    simp only [scheduleTags, Finset.mem_filter]
    exact ⟨ht, by simpa using hm⟩

/-- **C106** A foreground backup that another process keeps from starting (the lock is held), or whose tags are not those of the schedule (without
`--force`), ends with 1; images, chunks, snapshots are untouched, there is no new revision, and no revision has changed except that incomplete
local ones may have been removed. -/
theorem C106_refused (env : Env) (x : Outside) (sch : Schedule) (hx : x.sch = some sch) (dry : Bool) (tags : String) (force : Bool) (s : Sys)
    (hn : Named s.src.repo.files) (h : x.busy = true ∨ (force = false ∧ ¬ Known sch (parseTags tags))) :
    let out := main env x dry (.backup tags force) s
    out.1 = 1 ∧ SameData s out.2 ∧
    ∀ u, onDisk out.2.src.repo.files u = onDisk s.src.repo.files u ∨
      (onDisk out.2.src.repo.files u = none ∧ x.busy = false ∧
        ∃ r, onDisk s.src.repo.files u = some r ∧ r.server = "" ∧ r.clean = false) := by
  dsimp only
  simp only [main, hx, Cmd.run, backupCmd]
  cases hb : x.busy with
  | true => exact ⟨rfl, ⟨rfl, rfl, rfl⟩, fun u => .inl rfl⟩
  | false =>
    rcases h with h | ⟨h1, h2⟩
    · rw [hb] at h; cases h
    · subst h1
      simp only [Bool.false_eq_true, if_false, validateTags_error h2]
      refine ⟨rfl, ⟨rfl, rfl, rfl⟩, fun u => ?_⟩
      show onDisk s.src.repo.scan.clean.files u = _ ∨ _
      classical
      have hc := Conc.C39_clean_partial s.src.repo.scan u
      split at hc
      · rename_i hr
        obtain ⟨r, hr, rfl, h3, h4⟩ := hr
        exact .inr ⟨hc, trivial, r, ((Sync.scan hn).mem r).1 hr, h3, h4⟩
      · exact .inl hc

/-- What the process for the foreground backup has done when it ends. -/
theorem foreground_eq (env : Env) (x : Outside) (sch : Schedule) (hx : x.sch = some sch) (dry : Bool) (tags : String) (force : Bool) (s : Sys)
    (hn : Named s.src.repo.files) (hb : x.busy = false) (hk : force = true ∨ Known sch (parseTags tags)) :
    (x.busyRun = true → (main env x dry (.backup tags force) s).1 = 1) ∧
    (x.busyRun = false →
      (main env x dry (.backup tags force) s).1 =
        (if x.busyEnd then 1 else ((runBackup env x.alwaysFull x.rbd x.uuid x.ts (parseTags tags) s.connect).1 : Int)) ∧
      (∀ u, onDisk (main env x dry (.backup tags force) s).2.src.repo.files u =
        onDisk (runBackup env x.alwaysFull x.rbd x.uuid x.ts (parseTags tags) s.connect).2.src.repo.files u) ∧
      SameData (runBackup env x.alwaysFull x.rbd x.uuid x.ts (parseTags tags) s.connect).2 (main env x dry (.backup tags force) s).2 ∧
      (main env x dry (.backup tags force) s).2.src.w =
        (runBackup env x.alwaysFull x.rbd x.uuid x.ts (parseTags tags) s.connect).2.src.w) := by
  have hcl : ∀ (m : Repo) (u : String), onDisk ({ m with history := s.connect.src.repo.clean.history } : Repo).clean.files u = onDisk m.files u := by
    intro m u
    classical
    rw [Conc.C39_clean_partial, if_neg]
    rintro ⟨r, hr, _, hl, hc⟩
    have := ((clean_complete (Sync.scan hn)).2 r).1 hr
    rw [this.2 (by simp [Rev.isLocal, hl])] at hc
    cases hc
  have hv : (if force = true then Except.ok () else validateTags sch (parseTags tags)) = .ok () := by
    rcases hk with h | h
    · rw [if_pos h]
    · rw [validateTags_ok h, ite_self]
  simp only [main, hx, Cmd.run, backupCmd, hb, Bool.false_eq_true, if_false, hv]
  have he : x.busyRun = false → mainBackupLocked env x { s.connect with src := { s.connect.src with
      repo := s.connect.src.repo.clean.writeInfo (newRev x.uuid x.ts (parseTags tags)) } } =
      runBackup env x.alwaysFull x.rbd x.uuid x.ts (parseTags tags) s.connect := by
    intro hb
    unfold mainBackupLocked
    rw [hb]
    rfl
  refine ⟨fun h => ?_, fun h => ?_⟩
  · simp only [mainBackupLocked, h, finalClean, if_true]
    split <;> rfl
  · simp only [he h, finalClean]
    split
    · exact ⟨rfl, fun u => rfl, ⟨rfl, rfl, rfl⟩, rfl⟩
    · refine ⟨?_, fun u => hcl _ u, ⟨rfl, rfl, rfl⟩, rfl⟩
      simp only [exitCode, Ret.code]
      omega

/-- **C106** If `backy backup` exits with 0, in any state: nobody held the lock, the tags were accepted, and there is now a complete, trusted revision
of this server with the new id and exactly the requested tags. -/
theorem C106_success (env : Env) (x : Outside) (sch : Schedule) (hx : x.sch = some sch) (dry : Bool) (tags : String) (force : Bool) (s : Sys)
    (hn : Named s.src.repo.files) (h : (main env x dry (.backup tags force) s).1 = 0) :
    x.busy = false ∧ x.busyRun = false ∧ x.busyEnd = false ∧ (force = true ∨ Known sch (parseTags tags)) ∧
    ∃ r, onDisk (main env x dry (.backup tags force) s).2.src.repo.files x.uuid = some r ∧ r.uuid = x.uuid ∧ r.ts = x.ts ∧
      r.tags = parseTags tags ∧ r.server = "" ∧ r.trust = .trusted ∧ r.clean = true := by
  by_cases hr : x.busy = true ∨ (force = false ∧ ¬ Known sch (parseTags tags))
  · rw [(C106_refused env x sch hx dry tags force s hn hr).1] at h; cases h
  · rw [not_or, not_and, not_not, Bool.not_eq_true] at hr
    obtain ⟨hb, hk⟩ := hr
    have hk : force = true ∨ Known sch (parseTags tags) := by
      cases force
      · exact .inr (hk rfl)
      · exact .inl rfl
    obtain ⟨h1, h2⟩ := foreground_eq env x sch hx dry tags force s hn hb hk
    have hbr : x.busyRun = false := by
      cases hb : x.busyRun with
      | true => rw [h1 hb] at h; cases h
      | false => rfl
    obtain ⟨h3, h4, _⟩ := h2 hbr
    rw [h] at h3
    have hbe : x.busyEnd = false := by
      cases hb : x.busyEnd with
      | true => rw [hb] at h3; cases h3
      | false => rfl
    rw [hbe] at h3
    have h3 : (runBackup env x.alwaysFull x.rbd x.uuid x.ts (parseTags tags) s.connect).1 = 0 := by
      simp only [Bool.false_eq_true, if_false] at h3; omega
    refine ⟨hb, hbr, hbe, hk, ?_⟩
    have hn' : Named s.connect.src.repo.files := hn
    obtain ⟨r, r1, r2⟩ := C16_success_complete_partial env _ _ _ _ _ s.connect hn' h3
    obtain ⟨a1, a2, a3, _, a5, a6, _⟩ := C81_record env _ _ _ _ _ s.connect hn' r r1 r2
    exact ⟨r, by rw [h4]; exact r1, a1, a2, a3, a5, a6, r2⟩

/-- What a successful run has recorded about its snapshot. -/
theorem success_taken (env : Env) (af : Bool) (o : Rbd) (uuid : String) (ts : Int) (tags : Finset String) (s : Sys)
    (hn : Named s.src.repo.files) (h : (runBackup env af o uuid ts tags s.connect).1 = 0) :
    (runBackup env af o uuid ts tags s.connect).2.ceph.taken.get? uuid = some s.ceph.image := by
  have hn' : Named s.connect.src.repo.files := hn
  obtain ⟨v1, v2, v3, _⟩ := (complete_iff_verified env af o uuid ts tags s.connect hn').1
    (C16_success_complete_partial env af o uuid ts tags s.connect hn' h)
  rw [(runBackup_launch env af o uuid ts tags s.connect hn').1]
  unfold backup
  rw [if_neg (by simp [v1]), if_neg (by
    rw [not_or]
    exact ⟨by simp [v2], by
      show ¬ s.ceph.snaps.has (snapName uuid) = true
      have : s.ceph.snaps.has (snapName uuid) = false := v3
      simp [this]⟩)]
  show (s.ceph.taken.set uuid s.ceph.image).get? uuid = _
  simp

theorem foreground_log (env : Env) (x : Outside) (dry : Bool) (tags : String) (force : Bool) (s : Sys) :
    s.src.w.log ⊆ (main env x dry (.backup tags force) s).2.src.w.log := by
  unfold main
  split
  · exact fun _ h => h
  · rename_i sch _
    simp only [Cmd.run, backupCmd]
    split
    · exact fun _ h => h
    · generalize (if force = true then Except.ok () else validateTags sch (parseTags tags)) = v
      cases v with
      | error e => exact fun _ h => h
      | ok w =>
        have : s.src.w.log ⊆ (mainBackupLocked env x { s.connect with src := { s.connect.src with
            repo := s.connect.src.repo.clean.writeInfo (newRev x.uuid x.ts (parseTags tags)) } }).2.src.w.log := by
          unfold mainBackupLocked
          split
          · exact fun _ h => h
          · exact runBackup_log env x.alwaysFull x.rbd x.uuid x.ts (parseTags tags) s.connect
        simp only [finalClean]
        split <;> exact this

theorem named_of_steps {env : Env} {s0 s : Sys} (h0 : Initial s0) (hs : Steps env s0 s) {L : List Bytes} (hcoll : CollFree env.H L)
    (hL : s.src.w.log ⊆ L) : Named s.src.repo.files :=
  ((Good.initial (env := env) h0).steps hcoll hs hL).disk.named

/-- **C106** After any history in which Ceph's answers were right: if `backy backup` exits with 0, restoring its revision gives exactly the
image the backup was taken of. -/
theorem C106_restores (env : Env) (s0 s : Sys) (h0 : Initial s0) (hs : Steps env s0 s) (x : Outside) (sch : Schedule) (hx : x.sch = some sch)
    (dry : Bool) (tags : String) (force : Bool) (hu : Fresh s x.uuid) (hf : Faithful x.rbd s.ceph.snaps x.uuid s.ceph.image)
    (hcoll : CollFree env.H (main env x dry (.backup tags force) s).2.src.w.log)
    (h : (main env x dry (.backup tags force) s).1 = 0) :
    ∃ r, onDisk (main env x dry (.backup tags force) s).2.src.repo.files x.uuid = some r ∧ r.tags = parseTags tags ∧
      ∀ target, restore env (main env x dry (.backup tags force) s).2.connect.src.w r target = (.ok (), some s.ceph.image) := by
  have hn : Named s.src.repo.files := named_of_steps h0 hs hcoll (foreground_log env x dry tags force s)
  obtain ⟨hb, hbr, hbe, hk, r, r1, r2, r3, r4, r5, r6, r7⟩ := C106_success env x sch hx dry tags force s hn h
  obtain ⟨h3, h4, _, h6⟩ := (foreground_eq env x sch hx dry tags force s hn hb hk).2 hbr
  rw [h, hbe] at h3
  have h3 : (runBackup env x.alwaysFull x.rbd x.uuid x.ts (parseTags tags) s.connect).1 = 0 := by
    simp only [Bool.false_eq_true, if_false] at h3; omega
  rw [h6] at hcoll
  have hstep : Steps env s0 (runBackup env x.alwaysFull x.rbd x.uuid x.ts (parseTags tags) s.connect).2 :=
    .cons hs (.backup s _ _ _ _ _ hu hf)
  have ht := success_taken env x.alwaysFull x.rbd x.uuid x.ts (parseTags tags) s hn h3
  refine ⟨r, r1, r4, ?_⟩
  rw [h4] at r1
  obtain ⟨c, c1, c2, _⟩ := C13_restores_snapshot env s0 _ h0 hstep hcoll r (by rw [r2]; exact r1) r5 r7
  rw [r2, ht] at c1
  cases c1
  intro target
  show restore env (main env x dry (.backup tags force) s).2.src.w.fresh r target = _
  rw [h6]
  exact c2 target

/-- **C106** After any history: if nobody holds a lock, the tags are accepted and `rbd` works, `backy backup` exits with 0. -/
theorem C106_works (env : Env) (s0 s : Sys) (h0 : Initial s0) (hs : Steps env s0 s) (x : Outside) (sch : Schedule) (hx : x.sch = some sch)
    (dry : Bool) (tags : String) (force : Bool) (hu : Fresh s x.uuid) (hf : Works x.rbd s.ceph.snaps x.uuid s.ceph.image env.cs)
    (hcoll : CollFree env.H (main env x dry (.backup tags force) s).2.src.w.log)
    (hb : x.busy = false ∧ x.busyRun = false ∧ x.busyEnd = false) (hk : force = true ∨ Known sch (parseTags tags)) :
    (main env x dry (.backup tags force) s).1 = 0 := by
  have hn : Named s.src.repo.files := named_of_steps h0 hs hcoll (foreground_log env x dry tags force s)
  obtain ⟨h3, _, _, h6⟩ := (foreground_eq env x sch hx dry tags force s hn hb.1 hk).2 hb.2.1
  rw [h6] at hcoll
  rw [h3, hb.2.2, (C13_backup_succeeds env s0 s h0 hs x.alwaysFull x.rbd x.uuid x.ts (parseTags tags) hu hf hcoll).1]
  rfl

/-- Test: a first backup in an empty directory meets the hypotheses of `C106_works` (and with it those of `C106_success` and `C106_restores`). -/
example : (main Test.env exOutside false (.backup "manual:a" false) exNew).1 = 0 :=
  C106_works Test.env exNew exNew exNew_initial (.nil _) exOutside exSchedule rfl false "manual:a" false exFirst_fresh exFirst_works
    (Test.collFree _) ⟨rfl, rfl, rfl⟩ (.inr (by unfold Known; decide +kernel))

/-- Test: `C106_refused`, with an unknown tag. -/
example : (main Test.env exOutside false (.backup "nonsense" false) exNew).1 = 1 :=
  (C106_refused Test.env exOutside exSchedule rfl false "nonsense" false exNew (named_of_steps (env := Test.env) exNew_initial (.nil _) (Test.collFree _) (fun _ h => h))
    (.inr ⟨rfl, by unfold Known; decide +kernel⟩)).1

theorem exMain_ok : (main Test.env exOutside false (.backup "manual:a" false) exNew).1 = 0 :=
  C106_works Test.env exNew exNew exNew_initial (.nil _) exOutside exSchedule rfl false "manual:a" false exFirst_fresh exFirst_works
    (Test.collFree _) ⟨rfl, rfl, rfl⟩ (.inr (by unfold Known; decide +kernel))

example := C106_success Test.env exOutside exSchedule rfl false "manual:a" false exNew
  (named_of_steps (env := Test.env) exNew_initial (.nil _) (Test.collFree _) (fun _ h => h)) exMain_ok
example := C106_restores Test.env exNew exNew exNew_initial (.nil _) exOutside exSchedule rfl false "manual:a" false exFirst_fresh exFirst_works.faithful
  (Test.collFree _) exMain_ok

end Verif.Commands
