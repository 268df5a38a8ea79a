import Verif.Model.FileSource
import Verif.Proofs.RepoAll
import Verif.Props.Pull
/-!
# C56: the file source
-/
namespace Verif.FileSource
open Verif Verif.Repo

/-- An event in the life of a repository of the file source; the content of the source file is arbitrary at each backup, and
every process reads the directory when it starts. -/
inductive Step : FRepo → FRepo → Prop
  /-- a backup, successful or not -/
  | backup (s : FRepo) (source : Bytes) (o : Copy) (d : Nat) (uuid : String) (ts : Int) (tags : Finset String) :
      Step s (runBackup source o d uuid ts tags s.connect).2
  /-- a backup that is killed while or after copying, before it writes the metadata -/
  | killed (s : FRepo) (source : Bytes) (n : Nat) (uuid : String) (ts : Int) (tags : Finset String) (h : s.data.has uuid = false) :
      Step s { s with repo := s.connect.repo.clean.writeInfo (Backup.newRev uuid ts tags), data := s.data.set uuid (source.take n) }
  /-- a backup that is killed before it starts copying -/
  | prepared (s : FRepo) (uuid : String) (ts : Int) (tags : Finset String) :
      Step s { s with repo := s.connect.repo.clean.writeInfo (Backup.newRev uuid ts tags) }
  | rm (s : FRepo) (revs : List Rev) (h : ∀ r ∈ revs, r ∈ s.connect.repo.history) : Step s { s with repo := s.connect.repo.rm revs }
  | expire (s : FRepo) (sch : Schedule) (pd : String → Option Int) (now : String → Int) :
      Step s { s with repo := (sch.expire pd now s.connect.repo).2 }
  | distrust (s : FRepo) (revs : List Rev) (h : ∀ r ∈ revs, r ∈ s.connect.repo.history) :
      Step s { s with repo := (s.connect.repo.distrust revs).2 }
  | tags (s : FRepo) (sch : Schedule) (pd : String → Option Int) (action spec : String) (tags : Finset String)
      (expect : Option (Finset String)) (autoremove force : Bool) :
      Step s { s with repo := (s.connect.repo.tagsOp sch pd action spec tags expect autoremove force).2 }
  | gc (s : FRepo) : Step s (mainGc s)
  /-- metadata of another server's revision arrives -/
  | remote (s : FRepo) (r : Rev) (h : r.server ≠ "") : Step s { s with repo := s.repo.writeInfo r }

/-- A history of events. -/
inductive Steps : FRepo → FRepo → Prop
  | nil (s : FRepo) : Steps s s
  | cons {a b c : FRepo} (h : Steps a b) (h' : Step b c) : Steps a c

/-- A complete local revision has the data that was in the source file. -/
def Saved (data taken : Dict String Bytes) (r : Rev) : Prop :=
  r.server = "" → r.clean = true → ∃ c, data.get? r.uuid = some c ∧ taken.get? r.uuid = some c

theorem Saved.core (data taken : Dict String Bytes) : Core (Saved data taken) := by
  intro r r' h hu hs ht _ h1 h2
  rw [hu]
  exact h (hs ▸ h1) (by unfold Rev.clean at h2 ⊢; rw [← ht]; exact h2)

/-- What holds on disk between events. -/
structure Good (s : FRepo) : Prop where
  named : Named s.repo.files
  saved : ∀ u r, onDisk s.repo.files u = some r → Saved s.data s.taken r

theorem Good.all {s : FRepo} (h : Good s) : All (Saved s.data s.taken) s.connect.repo := by
  refine ⟨fun r hr => h.saved _ r ((Repo.scan_mem h.named r).1 hr), h.saved, h.named⟩

theorem Good.of {s : FRepo} (h : All (Saved s.data s.taken) s.repo) : Good s := ⟨h.named, h.disk⟩

theorem named_filter {files : Dict String RevFile} (h : Named files) (p : String → Bool) :
    Named (files.filter (fun e => p e.1)) :=
  ⟨h.nodup.sublist (List.Sublist.map _ List.filter_sublist), fun n f hm => h.named n f (List.mem_of_mem_filter hm)⟩

theorem newRev_not_clean (uuid : String) (ts : Int) (tags : Finset String) : (Backup.newRev uuid ts tags).clean = false := rfl

theorem Good.step {s s' : FRepo} (h : Good s) (hs : Step s s') : Good s' := by
  have hall := h.all
  have hcore := Saved.core s.data s.taken
  have hprep : ∀ uuid ts tags, All (Saved s.data s.taken) (s.connect.repo.clean.writeInfo (Backup.newRev uuid ts tags)) :=
    fun uuid ts tags => (hall.clean hcore).writeInfo (fun _ hc => by rw [newRev_not_clean] at hc; cases hc)
  cases hs with
  | backup source o d uuid ts tags =>
    unfold runBackup mainBackup
    generalize hx : ({ s.connect with repo := s.connect.repo.clean.writeInfo (Backup.newRev uuid ts tags) } : FRepo) = x
    have hxd : x.data = s.data ∧ x.taken = s.taken := by subst hx; exact ⟨rfl, rfl⟩
    have hxa : All (Saved x.data x.taken) x.repo := by rw [hxd.1, hxd.2]; subst hx; exact hprep uuid ts tags
    have hxs : All (Saved x.data x.taken) x.connect.repo := hxa.scan
    cases hf : Backup.findByUuid x.connect.repo uuid with
    | error e => exact Good.of hxs
    | ok r =>
      dsimp only
      have hr : r ∈ x.connect.repo.history ∧ r.uuid = uuid := by
        unfold Backup.findByUuid at hf
        split at hf
        · cases hf
        · rename_i q hq
          cases hf
          exact ⟨List.mem_of_find?_eq_some hq, by simpa using List.find?_some hq⟩
      -- a revision with data is not there to be backed up, a complete one without data cannot be
      have hgood : Good (backup source o d r x.connect).2 := by
        unfold backup
        by_cases hd : x.connect.data.has r.uuid = true
        · rw [if_pos hd]; exact Good.of hxs
        · rw [if_neg hd]
          have hnone : x.data.get? r.uuid = none := by
            cases hg : x.data.get? r.uuid with
            | none => rfl
            | some c =>
              have : x.connect.data.has r.uuid = true := by
                show x.data.has r.uuid = true
                unfold Dict.has; rw [hg]; rfl
              exact absurd this hd
          -- changing the data of this id harms no complete revision
          have hother : ∀ y c, Saved x.data x.taken y → Saved (x.data.set r.uuid c) x.taken y := by
            intro y c hy h1 h2
            obtain ⟨c', h3, h4⟩ := hy h1 h2
            refine ⟨c', ?_, h4⟩
            rw [Dict.get?_set]
            split
            · rename_i e; rw [e, hnone] at h3; cases h3
            · exact h3
          cases o with
          | noSource => exact Good.of hxs
          | fails n => exact Good.of (hxs.mono (fun y hy => hother y _ hy))
          | ok =>
            have : All (Saved (x.data.set r.uuid source) (x.taken.set r.uuid source)) x.connect.repo := hxs.mono (by
              intro y hy h1 h2
              obtain ⟨c', h3, h4⟩ := hother y source hy h1 h2
              rw [Dict.get?_set] at h3 ⊢
              rw [Dict.get?_set]
              split
              · exact ⟨_, rfl, rfl⟩
              · rename_i hne; rw [if_neg hne] at h3; exact ⟨c', h3, h4⟩)
            refine Good.of ?_
            show All _ (x.connect.repo.store _)
            apply this.store
            intro _ _
            show ∃ c, Dict.get? (x.data.set r.uuid source) r.uuid = some c ∧ Dict.get? (x.taken.set r.uuid source) r.uuid = some c
            rw [Dict.get?_set_self, Dict.get?_set_self]
            exact ⟨_, rfl, rfl⟩
      generalize hg : backup source o d r x.connect = g at hgood
      obtain ⟨g1, g2⟩ := g
      cases g1 with
      | error e => exact hgood
      | ok b => cases b <;> exact hgood
  | killed source n uuid ts tags hd =>
    refine Good.of ?_
    refine (hprep uuid ts tags).mono ?_
    intro y hy h1 h2
    obtain ⟨c', h3, h4⟩ := hy h1 h2
    refine ⟨c', ?_, h4⟩
    show Dict.get? (s.data.set uuid _) y.uuid = _
    rw [Dict.get?_set]
    split
    · rename_i e
      rw [e] at h3
      unfold Dict.has at hd; rw [h3] at hd; cases hd
    · exact h3
  | prepared uuid ts tags => exact Good.of (hprep uuid ts tags)
  | rm revs hr => exact Good.of (hall.rm hcore revs (fun r hx => hall.hist r (hr r hx)))
  | expire sch pd now => exact Good.of (hall.expire hcore sch pd now)
  | distrust revs hr => exact Good.of (hall.distrust hcore revs (fun r hx => hall.hist r (hr r hx)))
  | tags sch pd action spec tags expect auto force => exact Good.of (hall.tagsOp hcore sch pd action spec tags expect auto force)
  | gc =>
    refine ⟨named_filter h.named (fun k => (s.connect.repo.history.map Rev.uuid).contains (k ++ ".rev")), ?_⟩
    intro u r hr
    have hr : onDisk (s.repo.files.filter (fun e => (s.connect.repo.history.map Rev.uuid).contains (e.1 ++ ".rev"))) u = some r := hr
    rw [onDisk_eq_some, Dict.get?_filter s.repo.files (fun k => (s.connect.repo.history.map Rev.uuid).contains (k ++ ".rev"))] at hr
    split at hr
    · exact h.saved u r (onDisk_eq_some.2 hr)
    · cases hr
  | remote r hr =>
    have := hall.writeInfo (r := r) (fun hs => absurd hs hr)
    exact ⟨this.named, this.disk⟩

/-- **C56 (partial)** After any history of events that starts with an empty repository, restoring a complete revision made here gives
the content the source file had when it was copied for that revision.  Missing: garbage collection removes the metadata, see the
following theorems. -/
theorem C56_restores_partial (s : FRepo) (hs : Steps ⟨⟨[], [], []⟩, [], []⟩ s) (u : String) (r : Rev)
    (hr : onDisk s.repo.files u = some r) (hl : r.server = "") (hc : r.clean = true) :
    ∃ content, s.taken.get? u = some content ∧ mainRestore u s = some content := by
  have hg : Good s := by
    have h0 : Good ⟨⟨[], [], []⟩, [], []⟩ := ⟨⟨List.nodup_nil, by intro n f h; cases h⟩, by intro u r h; cases h⟩
    generalize (⟨⟨[], [], []⟩, [], []⟩ : FRepo) = z at hs h0
    clear hr
    induction hs with
    | nil => exact h0
    | cons _ h' ih => exact ih.step h'
  have hu : r.uuid = u := Sync.Named.uuid hg.named hr
  obtain ⟨c, h1, h2⟩ := hg.saved u r hr hl hc
  rw [hu] at h1 h2
  refine ⟨c, h2, ?_⟩
  unfold mainRestore Backup.findByUuid
  have hm : r ∈ s.connect.repo.history := (Repo.scan_mem hg.named r).2 (hu.symm ▸ hr)
  have := Sync.find?_uuid s.repo.scan_nodup hm
  rw [hu] at this
  rw [show s.connect.repo.history.find? (fun r => decide (r.uuid = u)) = some r from this]
  show (restore r s.connect).toOption = _
  unfold restore
  rw [show s.connect.data.get? r.uuid = some c by rw [hu]; exact h1]
  rfl

/-- **C56 (partial)** A verification gives 0 exactly if the revision can be restored, in every repository; it does not look at the
content. -/
theorem C56_verify_partial (s : FRepo) (u : String) :
    (mainVerify u s = 0 ↔ (mainRestore u s).isSome = true) ∧ (mainVerify u s = 0 ∨ mainVerify u s = 1) := by
  have key : ∀ r, (verify r s.connect = .ok () ∧ (restore r s.connect).toOption.isSome = true) ∨
      (verify r s.connect = .error .assertion ∧ (restore r s.connect).toOption.isSome = false) := by
    intro r
    cases h : s.connect.data.get? r.uuid with
    | none => exact .inr ⟨by simp [verify, Dict.has, h], by simp only [restore, h]; rfl⟩
    | some c => exact .inl ⟨by simp [verify, Dict.has, h], by simp only [restore, h]; rfl⟩
  unfold mainVerify mainRestore
  cases Backup.findByUuid s.connect.repo u with
  | error e => exact ⟨⟨fun h => (by cases h), fun h => (by cases h)⟩, .inr rfl⟩
  | ok r =>
    rcases key r with ⟨h1, h2⟩ | ⟨h1, h2⟩
    · simp [h1, h2]
    · simp [h1, h2]

/-- **C56 (partial)** `taken` is the content of the source file: a backup that reports success has copied the current content, has
written complete metadata, and restoring it at once gives this content. -/
theorem C56_success_partial (s : FRepo) (source : Bytes) (o : Copy) (d : Nat) (uuid : String) (ts : Int) (tags : Finset String)
    (hn : Named s.repo.files) (h : (runBackup source o d uuid ts tags s.connect).1 = 0) :
    (runBackup source o d uuid ts tags s.connect).2.taken.get? uuid = some source ∧
    (∃ r, onDisk (runBackup source o d uuid ts tags s.connect).2.repo.files uuid = some r ∧ r.clean = true ∧ r.tags = tags ∧ r.server = "") ∧
    (∀ u, u ≠ uuid → (runBackup source o d uuid ts tags s.connect).2.taken.get? u = s.taken.get? u) := by
  revert h
  unfold runBackup mainBackup
  generalize hx : ({ s.connect with repo := s.connect.repo.clean.writeInfo (Backup.newRev uuid ts tags) } : FRepo) = x
  have hnx : Named x.repo.files := by
    subst hx
    have hall : All (fun _ => True) s.connect.repo := ⟨fun _ _ => trivial, fun _ _ _ => trivial, hn⟩
    exact ((hall.clean (fun _ _ _ _ _ _ _ => trivial)).writeInfo trivial).named
  have hdx : onDisk x.repo.files uuid = some (Backup.newRev uuid ts tags) := by
    subst hx
    exact (onDisk_set (files := s.connect.repo.clean.files) (Backup.newRev uuid ts tags) uuid).trans (if_pos rfl)
  have htx : x.taken = s.taken := by subst hx; rfl
  have hm : Backup.newRev uuid ts tags ∈ x.connect.repo.history := (Repo.scan_mem hnx _).2 hdx
  have hf : Backup.findByUuid x.connect.repo uuid = .ok (Backup.newRev uuid ts tags) := by
    unfold Backup.findByUuid
    have := Sync.find?_uuid x.repo.scan_nodup hm
    rw [show x.connect.repo.history.find? (fun r => decide (r.uuid = uuid)) = some (Backup.newRev uuid ts tags) from this]
  rw [hf]
  dsimp only
  by_cases hd : x.connect.data.has (Backup.newRev uuid ts tags).uuid = true
  · simp only [backup, if_pos hd]
    intro h; cases h
  · cases o with
    | noSource => simp only [backup, if_neg hd]; intro h; cases h
    | fails n => simp only [backup, if_neg hd]; intro h; cases h
    | ok =>
      simp only [backup, if_neg hd]
      intro _
      refine ⟨Dict.get?_set_self _ _ _, ⟨{ Backup.newRev uuid ts tags with stats := (Backup.newRev uuid ts tags).stats.set "duration" d }, ?_, rfl, rfl, rfl⟩, ?_⟩
      · exact (onDisk_set (files := x.connect.repo.files) { Backup.newRev uuid ts tags with stats := (Backup.newRev uuid ts tags).stats.set "duration" d } uuid).trans (if_pos rfl)
      · intro u hu
        rw [← htx]
        exact Dict.get?_set_ne _ _ hu

/-- **C56 (partial)** Garbage collection removes no data. -/
theorem C56_gc_data_partial (s : FRepo) : (mainGc s).data = s.data := rfl

/-- **C56 is false of the code**: garbage collection removes the metadata of all revisions, whatever the history (ids do not end
in `.rev`).  After it, no revision can be found or restored. -/
theorem C56_false_gc (s : FRepo) (hn : Named s.repo.files)
    (hid : ∀ u r, onDisk s.repo.files u = some r → ∀ v, u ≠ v ++ ".rev") :
    (∀ u, onDisk (mainGc s).repo.files u = none) ∧ (mainGc s).connect.repo.history = [] ∧ ∀ u, mainRestore u (mainGc s) = none := by
  have hf : (mainGc s).repo.files = [] := by
    show s.repo.files.filter _ = []
    rw [List.filter_eq_nil_iff]
    intro e _ hc
    simp only [List.contains_iff_mem, List.mem_map] at hc
    obtain ⟨r, hr, hu⟩ := hc
    exact hid _ r ((Repo.scan_mem hn r).1 hr) e.1 hu
  have hh : (mainGc s).connect.repo.history = [] := by
    show sortHist (scanLoop (mainGc s).repo.files []) = []
    rw [hf]; rfl
  refine ⟨fun u => by rw [hf]; rfl, hh, fun u => ?_⟩
  unfold mainRestore Backup.findByUuid
  rw [hh]; rfl

/-- The hypotheses are met: two backups, then garbage collection. -/
def exTwo : FRepo :=
  (runBackup [4, 5] .ok 1 "bY" 20 {"daily"} (runBackup [1, 2, 3] .ok 1 "aX" 10 {"daily"} (⟨⟨[], [], []⟩, [], []⟩ : FRepo).connect).2.connect).2

example : Steps ⟨⟨[], [], []⟩, [], []⟩ exTwo :=
  .cons (.cons (.nil _) (.backup _ [1, 2, 3] .ok 1 "aX" 10 {"daily"})) (.backup _ [4, 5] .ok 1 "bY" 20 {"daily"})
example : mainRestore "aX" exTwo = some [1, 2, 3] ∧ mainRestore "bY" exTwo = some [4, 5] ∧ exTwo.repo.files.keys = ["aX", "bY"] := by
  decide +kernel
example : mainVerify "aX" exTwo = 0 ∧ mainVerify "cZ" exTwo = 1 ∧ mainVerify "aX" { exTwo with data := [] } = 1 := by decide +kernel
example : (mainGc exTwo).repo.files = [] ∧ (mainGc exTwo).data.keys = ["aX", "bY"] := by decide +kernel

/-- **C56 (partial)** The exit code of `backy-file backup ID`, in every state: 0 exactly if the revision exists, no data of it exists and the source
could be copied; then the data is the content of the source.  Otherwise it is 1 and the metadata of all revisions is as before.  Data of other
revisions is never touched. -/
theorem C56_exit_code_partial (s : FRepo) (source : Bytes) (o : Copy) (d : Nat) (u : String) (hn : Named s.repo.files) :
    ((mainBackup source o d u s).1 = 0 ↔ ((onDisk s.repo.files u).isSome = true ∧ s.data.get? u = none ∧ o = .ok)) ∧
    ((mainBackup source o d u s).1 = 0 → (mainBackup source o d u s).2.data.get? u = some source) ∧
    ((mainBackup source o d u s).1 ≠ 0 → (mainBackup source o d u s).1 = 1 ∧ (mainBackup source o d u s).2.repo.files = s.repo.files) ∧
    (∀ v, v ≠ u → (mainBackup source o d u s).2.data.get? v = s.data.get? v) := by
  have hdata : s.connect.data = s.data := rfl
  have hfiles : s.connect.repo.files = s.repo.files := rfl
  have hmem := fun r => Repo.scan_mem (s := s.repo) hn r
  unfold mainBackup Backup.findByUuid
  cases hf : s.connect.repo.history.find? (fun r => decide (r.uuid = u)) with
  | none =>
    have hno : onDisk s.repo.files u = none := by
      cases ho : onDisk s.repo.files u with
      | none => rfl
      | some r =>
        have hu : r.uuid = u := (hn.named u _ (Dict.mem_of_get? (onDisk_eq_some.1 ho)) rfl).symm
        have := List.find?_eq_none.1 hf r ((hmem r).2 (by rw [hu]; exact ho))
        simp [hu] at this
    simp [hno, hfiles, hdata]
  | some r =>
    have hu : r.uuid = u := by simpa using List.find?_some hf
    subst hu
    have hd := (hmem r).1 (List.mem_of_find?_eq_some hf)
    dsimp only
    cases hg : s.data.get? r.uuid with
    | some c =>
      have hh : s.connect.data.has r.uuid = true := by simp [Dict.has, hdata, hg]
      simp only [backup, if_pos hh]
      simp [hfiles, hdata]
    | none =>
      have hh : ¬ s.connect.data.has r.uuid = true := by simp [Dict.has, hdata, hg]
      cases o with
      | noSource =>
        simp only [backup, if_neg hh]
        simp [hfiles, hdata]
      | fails n =>
        simp only [backup, if_neg hh]
        simp only [hfiles]
        refine ⟨by simp, by simp, by simp, fun v hv => Dict.get?_set_ne _ _ hv⟩
      | ok =>
        simp only [backup, if_neg hh]
        refine ⟨by simp [hd], fun _ => Dict.get?_set_self _ _ _, by simp, fun v hv => Dict.get?_set_ne _ _ hv⟩

theorem exTwo_named : Named exTwo.repo.files := ⟨by decide +kernel, by
  intro n f h _
  have : ∀ e ∈ exTwo.repo.files, e.1 = e.2.rev.uuid := by decide +kernel
  exact this _ h⟩

example := C56_exit_code_partial exTwo [7] .ok 1 "aX" exTwo_named

/-- The exit codes for a revision whose data is gone, for one with data and for an unknown one. -/
example : (mainBackup [7] .ok 1 "aX" { exTwo with data := [] }).1 = 0 ∧ (mainBackup [7] .ok 1 "aX" exTwo).1 = 1 ∧
    (mainBackup [7] .ok 1 "cZ" exTwo).1 = 1 := by decide +kernel

end Verif.FileSource
