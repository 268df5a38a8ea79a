import Verif.Model.Conc
import Verif.Proofs.History
import Verif.Props.Locks
import Verif.Props.Gc
import Verif.Props.BackupRuns
/-!
# Properties C39, C41 and C65: several executions at the same time
-/
namespace Verif.Conc
open Verif Verif.Chunked Verif.Spec Verif.Rbd Verif.Repo Verif.Backup Verif.Locks Verif.Files

/-! ### C39: what cleaning removes -/

theorem clean_fold (l : List Rev) : ∀ (s : Repo), (∀ r ∈ l, r.server = "") → ∀ u,
    onDisk (l.foldl (fun s r => if r.clean then s else s.remove r) s).files u =
      if ∃ r ∈ l, r.uuid = u ∧ r.clean = false then none else onDisk s.files u := by
  classical
  induction l with
  | nil => intro s _ u; simp
  | cons x l ih =>
    intro s hl u
    simp only [List.foldl_cons]
    have hxs := hl x (by simp)
    by_cases hx : x.clean = true
    · rw [if_pos hx, ih s (fun y hy => hl y (by simp [hy])) u]
      simp [hx]
    · rw [if_neg hx]
      have hrem : s.remove x = s.drop x := by simp [Repo.remove, hxs]
      rw [hrem, ih (s.drop x) (fun y hy => hl y (by simp [hy])) u]
      have hx' : x.clean = false := by simpa using hx
      have hd : onDisk (s.drop x).files u = if u = x.uuid then none else onDisk s.files u := onDisk_erase _ _
      rw [hd]
      by_cases h1 : ∃ r ∈ l, r.uuid = u ∧ r.clean = false
      · rw [if_pos h1, if_pos]
        obtain ⟨r, a, b⟩ := h1
        exact ⟨r, by simp [a], b⟩
      · rw [if_neg h1]
        by_cases h2 : u = x.uuid
        · rw [if_pos h2, if_pos ⟨x, by simp, h2.symm, hx'⟩]
        · rw [if_neg h2, if_neg]
          rintro ⟨r, hr, hru, hrc⟩
          rcases List.mem_cons.1 hr with rfl | hr
          · exact h2 hru.symm
          · exact h1 ⟨r, hr, hru, hrc⟩

open Classical in
/-- **C39** (partial: relative to the list in memory) Cleaning removes exactly the files of the revisions that are local and
incomplete *according to the list the execution has in memory*; every other file stays as it is. -/
theorem C39_clean_partial (s : Repo) (u : String) :
    onDisk s.clean.files u =
      if ∃ r ∈ s.history, r.uuid = u ∧ r.server = "" ∧ r.clean = false then none else onDisk s.files u := by
  unfold Repo.clean
  rw [clean_fold _ _ (by
    intro r hr
    simp only [Repo.localHistory, Repo.getHistory, List.mem_filter] at hr
    simpa [Rev.isLocal] using hr.2)]
  congr 1
  simp only [Repo.localHistory, Repo.getHistory, List.mem_filter, Rev.isLocal, eq_iff_iff]
  constructor
  · rintro ⟨r, ⟨h1, h2⟩, h3, h4⟩; exact ⟨r, h1, h3, by simpa using h2, h4⟩
  · rintro ⟨r, h1, h3, h2, h4⟩; exact ⟨r, ⟨h1, by simpa using h2⟩, h3, h4⟩

/-- **C39** (partial: nobody else changed the directory since it was read) Then exactly the incomplete local revisions
are removed. -/
theorem C39_clean_current_partial (s : Repo) (hn : Named s.files) (u : String) :
    onDisk s.scan.clean.files u = (onDisk s.files u).filter (fun r => !(decide (r.server = "") && !r.clean)) := by
  classical
  rw [C39_clean_partial]
  cases hd : onDisk s.files u with
  | none =>
    have : onDisk s.scan.files u = none := hd
    rw [this]
    split <;> rfl
  | some r =>
    have hd' : onDisk s.scan.files u = some r := hd
    have hru : r.uuid = u := onDisk_uuid hn hd
    rw [hd']
    by_cases hc : r.server = "" ∧ r.clean = false
    · rw [if_pos ⟨r, (Repo.scan_mem hn r).2 (by rw [hru]; exact hd), hru, hc.1, hc.2⟩]
      simp [Option.filter, hc.1, hc.2]
    · rw [if_neg]
      · have : (!(decide (r.server = "") && !r.clean)) = true := by
          cases hrc : r.clean
          · have : r.server ≠ "" := fun e => hc ⟨e, hrc⟩
            simp [this]
          · simp
        simp only [Option.filter, this, if_true]
      · rintro ⟨x, hx, hxu, hxs, hxc⟩
        have hx' := (Repo.scan_mem hn x).1 hx
        rw [hxu, hd] at hx'
        cases hx'
        exact hc ⟨hxs, hxc⟩

/-! ### C41: what garbage collection and stale lists do to the data -/

/-- An execution knows every complete local revision on disk. -/
def Covers (c : Shared) (p : Nat) : Prop :=
  ∀ u r, onDisk c.sys.src.repo.files u = some r → r.server = "" → r.clean = true →
    ∃ x ∈ c.mem p, x.uuid = u ∧ x.server = ""

/-- The complete local revisions an execution knows still exist. -/
def Alive (c : Shared) (p : Nat) : Prop :=
  ∀ x ∈ c.mem p, x.server = "" → x.clean = true →
    ∃ r, onDisk c.sys.src.repo.files x.uuid = some r ∧ r.server = "" ∧ r.clean = true

/-- A backup starts with a current list, one new revision, and nothing stored for it yet. -/
def Ready (c : Shared) (p : Nat) : Prop :=
  c.mem p = c.sys.src.repo.scan.history ∧
  ∀ r ∈ c.mem p, r.server = "" → r.clean = false →
    r.trust ≠ .distrusted ∧ c.sys.src.w.metas.get? r.uuid = none ∧
      ∀ x ∈ c.mem p, x.uuid ≠ r.uuid → x.server = "" → x.clean = true

/-- What an execution has to know when a body takes effect.  Cleaning, removing, expiry and changing tags need nothing. -/
def Knows (p : Nat) : Locks.Op → Shared → Prop
  | .gc, c => Covers c p
  | .verify, c => Alive c p
  | .distrust, c => Alive c p
  | .backup, c => Ready c p
  | _, _ => True

/-- Only the disk. -/
def DiskAll (P : Rev → Prop) (s : Repo) : Prop := Named s.files ∧ ∀ u r, onDisk s.files u = some r → P r

theorem DiskAll.scan {P : Rev → Prop} {s : Repo} (h : DiskAll P s) : All P s.scan :=
  ⟨fun r hr => h.2 _ r ((Repo.scan_mem h.1 r).1 hr), h.2, h.1⟩

theorem DiskAll.set {P : Rev → Prop} {s : Repo} (h : DiskAll P s) {r : Rev} (hr : P r) : DiskAll P (s.writeInfo r) := by
  refine ⟨h.1.set r, fun u x hx => ?_⟩
  have hx' : onDisk (s.files.set r.uuid ⟨false, r⟩) u = some x := hx
  rw [onDisk_set] at hx'
  split at hx'
  · cases hx'; exact hr
  · exact h.2 u x hx'

theorem DiskAll.remove {P : Rev → Prop} {s : Repo} (h : DiskAll P s) (hP : ∀ r, r.server ≠ "" → P r) (r : Rev) :
    DiskAll P (s.remove r) := by
  unfold Repo.remove
  split
  · rename_i hr
    exact DiskAll.set (s := s.assign _) h (hP _ hr.2)
  · refine ⟨h.1.erase _, fun u x hx => ?_⟩
    have hx' : onDisk (s.files.erase r.uuid) u = some x := hx
    rw [onDisk_erase] at hx'
    split at hx'
    · cases hx'
    · exact h.2 u x hx'

theorem DiskAll.foldl {P : Rev → Prop} (g : Repo → Rev → Repo) (hg : ∀ s r, DiskAll P s → DiskAll P (g s r))
    (l : List Rev) : ∀ {s : Repo}, DiskAll P s → DiskAll P (l.foldl g s) := by
  induction l with
  | nil => intro s h; exact h
  | cons r l ih => intro s h; exact ih (hg s r h)

theorem stored_remote (env : Env) (w : World) (taken : Dict String Bytes) (r : Rev) (h : r.server ≠ "") :
    Stored env w taken r := fun hs => absurd hs h

/-- The invariant: everything complete is stored. -/
structure Good (env : Env) (c : Shared) : Prop where
  disk : Disk env c.sys.src.w c.sys.ceph.taken c.sys.src.repo.files
  snaps : SnapsOK c.sys.ceph

theorem Good.view {env : Env} {c : Shared} (h : Good env c) (p : Nat) :
    Disk env (c.view p).src.w c.sys.ceph.taken (c.view p).src.repo.files := ⟨WOK.fresh h.disk.wok, h.disk.named, h.disk.good⟩

theorem Good.diskAll {env : Env} {c : Shared} (h : Good env c) (p : Nat) :
    DiskAll (Stored env (c.view p).src.w c.sys.ceph.taken) (c.view p).src.repo := ⟨h.disk.named, h.disk.good⟩

/-- A change of metadata only. -/
theorem Good.repoStep {env : Env} {c : Shared} (h : Good env c) (p : Nat) (f : Repo → Repo)
    (hf : DiskAll (Stored env (c.view p).src.w c.sys.ceph.taken) (f (c.view p).src.repo)) : Good env (c.repoStep p f) :=
  ⟨⟨(h.view p).wok, hf.1, hf.2⟩, h.snaps⟩

theorem Alive.all {env : Env} {c : Shared} {p : Nat} (h : Good env c) (ha : Alive c p) :
    All (Stored env (c.view p).src.w c.sys.ceph.taken) (c.view p).src.repo := by
  refine ⟨fun x hx hs hc => ?_, h.disk.good, h.disk.named⟩
  obtain ⟨r, h1, h2, h3⟩ := ha x hx hs hc
  have hru : r.uuid = x.uuid := onDisk_uuid h.disk.named h1
  have := h.disk.good _ r h1 h2 h3
  rw [hru] at this
  exact this

/-- Deleting a chunk that does not exist. -/
theorem disk_eraseMissing {env : Env} {w : World} {taken : Dict String Bytes} {files : Dict String RevFile}
    (h : Disk env w taken files) {x : Hash} (hx : w.chunks.get? x = none) :
    Disk env { w with chunks := w.chunks.erase x } taken files := by
  have := Mem.eraseMissing (s := ⟨(⟨files, [], []⟩ : Repo).scan, w⟩) ⟨h, Sync.scan h.named⟩ hx
  exact this.disk

theorem Good.verifyMark {env : Env} {c : Shared} (h : Good env c) {p : Nat} (ha : Alive c p) (order : List Hash → List Hash)
    (r : Rev) (hr : r ∈ c.mem p) : Good env (c.srcStep p (fun s => (Src.verifyMark env order s r).2)) := by
  have hall := ha.all h
  have hcore := Stored.core env (c.view p).src.w c.sys.ceph.taken
  refine ⟨?_, h.snaps⟩
  show Disk env (Src.verifyMark env order (c.view p).src r).2.w c.sys.ceph.taken
    (Src.verifyMark env order (c.view p).src r).2.repo.files
  have hw := (h.view p).wok
  unfold Src.verifyMark
  cases hcand : verifyCandidates order (c.view p).src r with
  | error e => exact h.view p
  | ok cand =>
    dsimp only
    cases hb : firstBad env (c.view p).src.w cand with
    | some x =>
      exact disk_eraseMissing (Disk.ofAll hw (hall.remove hcore (hall.hist r hr) false)) (firstBad_some hw cand hb)
    | none =>
      dsimp only
      split
      · exact h.view p
      · exact Disk.ofAll hw (hall.store (hcore r _ (hall.hist r hr) rfl rfl rfl rfl))

theorem Good.gc {env : Env} {c : Shared} (h : Good env c) {p : Nat} (hc : Covers c p) :
    Good env (c.srcStep p (fun s => s.gc.2)) := by
  refine ⟨?_, h.snaps⟩
  show Disk env (c.view p).src.gc.2.w c.sys.ceph.taken (c.view p).src.gc.2.repo.files
  unfold Src.gc
  have hv := h.view p
  cases hu : usedChunks (c.view p).src.w (c.view p).src.repo.localHistory [] with
  | error e => exact hv
  | ok used =>
    refine ⟨purge_ok hv.wok used, hv.named, ?_⟩
    intro u r hr hs hcl
    obtain ⟨d, h1, h2⟩ := hv.good u r hr hs hcl
    refine ⟨d, h1, h2.purge used ?_⟩
    intro m hm x hx
    obtain ⟨y, hy, hyu, hys⟩ := hc u r hr hs hcl
    have hru : r.uuid = u := onDisk_uuid hv.named hr
    refine ((usedChunks_ok hu).2 x).2 (.inr ⟨y, ?_, m, by rw [hyu, ← hru]; exact hm, hx⟩)
    have hy' : y ∈ (c.view p).src.repo.history := hy
    simp [Repo.localHistory, Repo.getHistory, hy', Rev.isLocal, hys]

theorem Ready.start {env : Env} {c : Shared} {p : Nat} (h : Good env c) (hr : Ready c p) {r : Rev} (hm : r ∈ c.mem p)
    (hl : r.server = "") (hc : r.clean = false) : Start env (c.view p) r := by
  obtain ⟨h1, h2⟩ := hr
  obtain ⟨h3, h4, h5⟩ := h2 r hm hl hc
  have hsync : Sync (c.view p).src.repo := by
    have : (c.view p).src.repo = c.sys.src.repo.scan := by
      show ({ c.sys.src.repo with history := c.mem p } : Repo) = _
      rw [h1]; rfl
    rw [this]
    exact Sync.scan h.disk.named
  exact ⟨⟨h.view p, hsync⟩, h.snaps, hm, hl, h3, hc, h4, h5⟩

/-- Everything that is hashed stays in the log. -/
theorem Body.log {env : Env} {p : Nat} {op : Locks.Op} {c d : Shared} (h : Body env p op c d) : c.sys.src.w.log ⊆ d.sys.src.w.log := by
  cases h with
  | backup _ af o r hm hl hc hf => exact backup_log env af o r (c.view p)
  | verify _ order r hm =>
    show _ ⊆ (Src.verifyMark env order (c.view p).src r).2.w.log
    rw [verifyMark_log]; exact fun _ h => h
  | gc =>
    show _ ⊆ (c.view p).src.gc.2.w.log
    rw [gc_log]; exact fun _ h => h
  | _ => exact fun _ h => h

theorem Good.body {env : Env} {L : List Bytes} (hL : CollFree env.H L) {p : Nat} {op : Locks.Op} {c d : Shared} (h : Good env c)
    (hk : Knows p op c) (hb : Body env p op c d) (hlog : d.sys.src.w.log ⊆ L) : Good env d := by
  have hcore := Stored.core env (c.view p).src.w c.sys.ceph.taken
  have hrem := stored_remote env (c.view p).src.w c.sys.ceph.taken
  cases hb with
  | clean =>
    refine h.repoStep p _ (DiskAll.foldl _ (fun s r hs => ?_) _ (h.diskAll p))
    split
    · exact hs
    · exact hs.remove hrem r
  | rm _ revs hr => exact h.repoStep p _ (DiskAll.foldl _ (fun s r hs => hs.remove hrem r) _ (h.diskAll p))
  | expire _ sch pd now =>
    have := (h.diskAll p).scan.expire hcore sch pd now
    exact h.repoStep p _ ⟨this.named, this.disk⟩
  | tags _ sch pd action spec tags expect auto force =>
    have := (h.diskAll p).scan.tagsOp hcore sch pd action spec tags expect auto force
    exact h.repoStep p _ ⟨this.named, this.disk⟩
  | distrust _ revs hr =>
    have hall := Alive.all h hk
    have := hall.distrust hcore revs (fun r hx => hall.hist r (hr r hx))
    exact h.repoStep p _ ⟨this.named, this.disk⟩
  | backup _ af o r hm hl hc hf =>
    obtain ⟨b1, b2, _⟩ := backup_disk hL af o (Ready.start h hk hm hl hc) hf hlog
    exact ⟨b1, b2⟩
  | verify _ order r hm => exact h.verifyMark hk order r hm
  | gc => exact h.gc hk

theorem Run.log {env : Env} {G : Nat → Locks.Op → Shared → Prop} {c0 : Shared} {s : State Shared} (h : Run env G c0 s) :
    c0.sys.src.w.log ⊆ s.data.sys.src.w.log := by
  induction h with
  | init => exact fun _ h => h
  | locks _ _ hd ih => rw [hd]; exact ih
  | body _ p op hin d hg hb ih => exact fun x hx => hb.log (ih hx)
  | load _ p hi ih => exact ih
  | create _ p hi uuid ts tags ih => exact ih
  | guest _ image ih => exact ih

theorem Run.good {env : Env} {L : List Bytes} (hL : CollFree env.H L) {c0 : Shared} (h0 : Good env c0) {s : State Shared}
    (h : Run env Knows c0 s) (hlog : s.data.sys.src.w.log ⊆ L) : Good env s.data := by
  induction h with
  | init => exact h0
  | locks _ _ hd ih => rw [hd] at hlog ⊢; exact ih hlog
  | body _ p op hin d hg hb ih => exact (ih (fun x hx => hlog (hb.log hx))).body hL hg hb hlog
  | load _ p hi ih =>
    have := ih hlog
    exact this.repoStep p _ (this.diskAll p)
  | create _ p hi uuid ts tags ih =>
    have := ih hlog
    exact this.repoStep p (fun s => s.writeInfo (newRev uuid ts tags))
      (DiskAll.set (r := newRev uuid ts tags) (this.diskAll p) (fun _ hc => absurd hc (by simp [newRev, Rev.clean, Dict.get?, Dict.has])))
  | guest _ image ih =>
    have := ih hlog
    exact ⟨this.disk, this.snaps⟩

/-- An empty repository and an image. -/
theorem Good.initial {env : Env} {c : Shared} (h : Initial c.sys) : Good env c := by
  have := Backup.Good.initial (env := env) h
  exact ⟨this.disk, this.snaps⟩

/-- **C41** (partial: for executions that know what they have to know) However the executions are interleaved, as far as the
locks allow: if garbage collections know all complete revisions, and backups, verifications and `distrust` know none
that are gone, every complete local revision restores to the content its snapshot had. -/
theorem C41_no_loss_partial (env : Env) (c0 : Shared) (h0 : Initial c0.sys) (s : State Shared) (hs : Run env Knows c0 s)
    (hcoll : CollFree env.H s.data.sys.src.w.log) (r : Rev) (hr : onDisk s.data.sys.src.repo.files r.uuid = some r)
    (hl : r.server = "") (hc : r.clean = true) :
    ∃ c, s.data.sys.ceph.taken.get? r.uuid = some c ∧
      (∀ target, restore env s.data.sys.connect.src.w r target = (.ok (), some c)) := by
  have hg := hs.good hcoll (Good.initial h0) (fun _ h => h)
  have hm := hg.disk.connect
  obtain ⟨c, h1, h2⟩ := hm.disk.good r.uuid r hr hl hc
  exact ⟨c, h1, C20_restore_file env _ r c hm.disk.wok h2 hcoll⟩

/-- **C41** (partial: revisions that existed when the list was read) Garbage collection, with whatever list of revisions,
keeps all data of every revision with an entry in this list: complete or not when the list was read. -/
theorem C41_gc_known_partial (env : Env) (c : Shared) (p : Nat) (hw : WOK env c.sys.src.w) (x : Rev) (hx : x ∈ c.mem p)
    (hs : x.server = "") (img : Bytes) (hd : OnDisk env c.sys.src.w x.uuid img) :
    OnDisk env (c.srcStep p (fun s => s.gc.2)).sys.src.w x.uuid img := by
  show OnDisk env (c.view p).src.gc.2.w x.uuid img
  have := (C07_gc_keeps_local env (c.view p).src (WOK.fresh hw) x (by
    have hx' : x ∈ (c.view p).src.repo.history := hx
    simp [Repo.localHistory, Repo.getHistory, hx', Rev.isLocal, hs])).2.2.2 img hd
  exact this.1

/-! ### What goes wrong -/

/-- The start of all examples: one complete revision "a", and the image has been changed since. -/
def exStart : Shared := ⟨exChanged, fun _ => []⟩

/-- `rbd` works. -/
def exRbd : Rbd := idealRbd [0, 0, 0, 0, 2, 2, 2, 2] [1]

theorem exStart_good : Good Test.env exStart := by
  have := (Backup.Good.initial (env := Test.env) exNew_initial).steps (Test.collFree _) exChanged_steps (fun _ h => h)
  exact ⟨this.disk, this.snaps⟩

/-- The complete revision "a". -/
def exA : Rev := finished (idealRbd [] []) (newRev "a" 10 {"daily"})

/-- Execution 1 has read the directory. -/
def ex1 : Shared := exStart.load 1
/-- Execution 2 has created revision "b" and read the directory. -/
def ex2 : Shared := (ex1.create 2 "b" 20 {"daily"}).load 2
/-- Execution 2 has made the backup. -/
def ex3 : Shared := ex2.commit 2 (backup Test.env false exRbd (newRev "b" 20 {"daily"}) (ex2.view 2)).2
/-- Execution 1 has verified revision "a". -/
def ex4 : Shared := ex3.srcStep 1 (fun s => (Src.verifyMark Test.env id s exA).2)
/-- Execution 1 has collected garbage. -/
def ex5 : Shared := ex4.srcStep 1 (fun s => s.gc.2)

theorem exFaithful : Faithful exRbd ex2.sys.ceph.snaps "b" ex2.sys.ceph.image := exSecond_works.faithful

/-- **C41, not satisfied**: a verification that started before a backup and ends after it deletes the data of the new
revision, which is complete: the locks allow this. -/
theorem C41_false_verify_gc : ∃ s, Run Test.env (fun _ _ _ => True) exStart s ∧ Good Test.env exStart ∧
    ∃ r, onDisk s.data.sys.src.repo.files "b" = some r ∧ r.server = "" ∧ r.clean = true ∧
      (restore Test.env s.data.sys.connect.src.w r none).1 ≠ .ok () := by
  let s0 : State Shared := ⟨fun _ => .idle, fun _ => [], [], exStart⟩
  have r0 : Run Test.env (fun _ _ _ => True) exStart s0 := .init
  have r1 := r0.load 1 rfl
  have r2 := r1.create 2 rfl "b" 20 {"daily"}
  have r3 := r2.load 2 rfl
  have r4 := r3.locks (.call _ 1 .verify rfl) rfl
  have r5 := r4.locks (.acquire _ 1 .verify .purge .shared [] rfl (by simp [s0]) rfl) rfl
  have r6 := r5.locks (.enter _ 1 .verify rfl rfl) rfl
  have r7 := r6.locks (.call _ 2 .backup rfl) rfl
  have r8 := r7.locks (.acquire _ 2 .backup .backup .exclusive [(.purge, .shared)] rfl (by simp [s0, put]) rfl) rfl
  have r9 := r8.locks (.acquire _ 2 .backup .purge .shared [] rfl (by simp [s0, put]) rfl) rfl
  have r10 := r9.locks (.enter _ 2 .backup rfl rfl) rfl
  have r11 := r10.body 2 .backup ⟨.backup, [], rfl, rfl⟩ ex3 trivial
    (.backup ex2 false exRbd (newRev "b" 20 {"daily"}) (by decide +kernel) rfl (by decide +kernel) exFaithful)
  have r12 := r11.body 1 .verify ⟨.verify, [], rfl, rfl⟩ ex4 trivial (.verify ex3 id exA (by decide +kernel))
  have r13 := r12.locks (.nested _ 1 .verify [] .gc rfl rfl) rfl
  have r14 := r13.body 1 .gc ⟨.verify, [.gc], rfl, rfl⟩ ex5 trivial (.gc ex4)
  refine ⟨_, r14, exStart_good, finished exRbd (newRev "b" 20 {"daily"}), ?_, ?_, ?_, ?_⟩ <;> decide +kernel

/-- The same for the garbage collection command, which reads the list of revisions before it takes the lock. -/
theorem C41_false_gc : ∃ s, Run Test.env (fun _ _ _ => True) exStart s ∧ s.at_ 1 = .running .gc [] ∧
    ∃ r, onDisk s.data.sys.src.repo.files "b" = some r ∧ r.server = "" ∧ r.clean = true ∧
      (restore Test.env s.data.sys.connect.src.w r none).1 ≠ .ok () := by
  let s0 : State Shared := ⟨fun _ => .idle, fun _ => [], [], exStart⟩
  have r0 : Run Test.env (fun _ _ _ => True) exStart s0 := .init
  have r1 := r0.load 1 rfl
  have r2 := r1.create 2 rfl "b" 20 {"daily"}
  have r3 := r2.load 2 rfl
  have r7 := r3.locks (.call _ 2 .backup rfl) rfl
  have r8 := r7.locks (.acquire _ 2 .backup .backup .exclusive [(.purge, .shared)] rfl (by simp [s0, put]) rfl) rfl
  have r9 := r8.locks (.acquire _ 2 .backup .purge .shared [] rfl (by simp [s0, put]) rfl) rfl
  have r10 := r9.locks (.enter _ 2 .backup rfl rfl) rfl
  have r11 := r10.body 2 .backup ⟨.backup, [], rfl, rfl⟩ ex3 trivial
    (.backup ex2 false exRbd (newRev "b" 20 {"daily"}) (by decide +kernel) rfl (by decide +kernel) exFaithful)
  have r12 := r11.locks (.die _ 2) rfl
  have r13 := r12.locks (.call _ 1 .gc rfl) rfl
  have r14 := r13.locks (.acquire _ 1 .gc .purge .exclusive [] rfl (by simp [s0, put]) rfl) rfl
  have r15 := r14.locks (.enter _ 1 .gc rfl rfl) rfl
  have r16 := r15.body 1 .gc ⟨.gc, [], rfl, rfl⟩ (ex3.srcStep 1 (fun s => s.gc.2)) trivial (.gc ex3)
  refine ⟨_, r16, rfl, finished exRbd (newRev "b" 20 {"daily"}), ?_, ?_, ?_, ?_⟩ <;> decide +kernel

/-- The daemon (execution 1) reads the directory while a backup of "b" is running. -/
def ex6 : Shared := ((exStart.create 2 "b" 20 {"daily"}).load 2).load 1
/-- The backup is finished. -/
def ex7 : Shared := ex6.commit 2 (backup Test.env false exRbd (newRev "b" 20 {"daily"}) (ex6.view 2)).2

/-- **C39, not satisfied**: an execution that read the directory while a backup was running removes the revision after it
was completed. -/
theorem C39_false_stale : ∃ s s', Run Test.env (fun _ _ _ => True) exStart s ∧ Run Test.env (fun _ _ _ => True) exStart s' ∧
    (∃ r, onDisk s.data.sys.src.repo.files "b" = some r ∧ r.server = "" ∧ r.clean = true) ∧
    Body Test.env 1 .clean s.data s'.data ∧ onDisk s'.data.sys.src.repo.files "b" = none := by
  let s0 : State Shared := ⟨fun _ => .idle, fun _ => [], [], exStart⟩
  have r0 : Run Test.env (fun _ _ _ => True) exStart s0 := .init
  have r2 := r0.create 2 rfl "b" 20 {"daily"}
  have r3 := r2.load 2 rfl
  have r4 := r3.load 1 rfl
  have r7 := r4.locks (.call _ 2 .backup rfl) rfl
  have r8 := r7.locks (.acquire _ 2 .backup .backup .exclusive [(.purge, .shared)] rfl (by simp [s0]) rfl) rfl
  have r9 := r8.locks (.acquire _ 2 .backup .purge .shared [] rfl (by simp [s0, put]) rfl) rfl
  have r10 := r9.locks (.enter _ 2 .backup rfl rfl) rfl
  have r11 := r10.body 2 .backup ⟨.backup, [], rfl, rfl⟩ ex7 trivial
    (.backup ex6 false exRbd (newRev "b" 20 {"daily"}) (by decide +kernel) rfl (by decide +kernel) exFaithful)
  have r12 := r11.locks (.die _ 2) rfl
  have r13 := r12.locks (.call _ 1 .clean rfl) rfl
  have r14 := r13.locks (.acquire _ 1 .clean .backup .exclusive [] rfl (by simp [s0, put]) rfl) rfl
  have r15 := r14.locks (.enter _ 1 .clean rfl rfl) rfl
  have r16 := r15.body 1 .clean ⟨.clean, [], rfl, rfl⟩ (ex7.repoStep 1 Repo.clean) trivial (.clean ex7)
  refine ⟨_, _, r15, r16, ⟨finished exRbd (newRev "b" 20 {"daily"}), ?_, ?_, ?_⟩, .clean ex7, ?_⟩ <;> decide +kernel

/-! ### C65: concurrent changes of metadata -/

/-- **C65** (partial: tags and expiry) Changing tags and expiry depend on what is on disk only, never on what the execution
read earlier: they do not undo anything. -/
theorem C65_fresh_partial (c : Shared) (p : Nat) (h : List Rev) (sch : Schedule) (pd : String → Option Int)
    (now : String → Int) (action spec : String) (tags : Finset String) (expect : Option (Finset String)) (auto force : Bool) :
    (({ c with mem := put c.mem p h } : Shared).repoStep p (fun s => (s.tagsOp sch pd action spec tags expect auto force).2)).sys =
      (c.repoStep p (fun s => (s.tagsOp sch pd action spec tags expect auto force).2)).sys ∧
    (({ c with mem := put c.mem p h } : Shared).repoStep p (fun s => (sch.expire pd now s).2)).sys =
      (c.repoStep p (fun s => (sch.expire pd now s).2)).sys := ⟨rfl, rfl⟩

/-- Somebody adds the tag "manual:keep" to revision "a". -/
def exTagged (c : Shared) : Shared :=
  c.repoStep 2 (fun s => (s.tagsOp [] (fun _ => none) "add" "a" {"manual:keep"} none false false).2)

/-- Somebody removes revision "a". -/
def exGone (c : Shared) : Shared := c.repoStep 2 (fun s => s.rm [exA])

/-- **C65, not satisfied**: a verification writes the metadata it read when it started: a tag that was added in the
meantime, under the lock, is lost again. -/
theorem C65_false_verify_loses_tag : ∃ s s', Run Test.env (fun _ _ _ => True) exStart s ∧
    Run Test.env (fun _ _ _ => True) exStart s' ∧ Body Test.env 1 .verify s.data s'.data ∧
    (∃ r, onDisk s.data.sys.src.repo.files "a" = some r ∧ "manual:keep" ∈ r.tags) ∧
    (∃ r, onDisk s'.data.sys.src.repo.files "a" = some r ∧ "manual:keep" ∉ r.tags) := by
  let s0 : State Shared := ⟨fun _ => .idle, fun _ => [], [], exStart⟩
  have r0 : Run Test.env (fun _ _ _ => True) exStart s0 := .init
  have r1 := r0.load 1 rfl
  have r4 := r1.locks (.call _ 1 .verify rfl) rfl
  have r5 := r4.locks (.acquire _ 1 .verify .purge .shared [] rfl (by simp [s0]) rfl) rfl
  have r6 := r5.locks (.enter _ 1 .verify rfl rfl) rfl
  have r7 := r6.locks (.call _ 2 .tags rfl) rfl
  have r8 := r7.locks (.acquire _ 2 .tags .backup .exclusive [] rfl (by simp [s0, put]) rfl) rfl
  have r9 := r8.locks (.enter _ 2 .tags rfl rfl) rfl
  have r10 := r9.body 2 .tags ⟨.tags, [], rfl, rfl⟩ (exTagged ex1) trivial
    (.tags ex1 [] (fun _ => none) "add" "a" {"manual:keep"} none false false)
  have hb : Body Test.env 1 .verify (exTagged ex1) ((exTagged ex1).srcStep 1 (fun s => (Src.verifyMark Test.env id s exA).2)) :=
    .verify (exTagged ex1) id exA (by decide +kernel)
  have r11 := r10.body 1 .verify ⟨.verify, [], rfl, rfl⟩ _ trivial hb
  refine ⟨_, _, r10, r11, hb, ⟨{ exA with tags := {"daily", "manual:keep"} }, ?_, ?_⟩, ⟨{ exA with trust := .verified }, ?_, ?_⟩⟩ <;> decide +kernel

/-- **C65, not satisfied**: a revision that was removed during its verification reappears. -/
theorem C65_false_verify_resurrects : ∃ s s', Run Test.env (fun _ _ _ => True) exStart s ∧
    Run Test.env (fun _ _ _ => True) exStart s' ∧ Body Test.env 1 .verify s.data s'.data ∧
    onDisk s.data.sys.src.repo.files "a" = none ∧ (onDisk s'.data.sys.src.repo.files "a").isSome = true := by
  let s0 : State Shared := ⟨fun _ => .idle, fun _ => [], [], exStart⟩
  have r0 : Run Test.env (fun _ _ _ => True) exStart s0 := .init
  have r1 := (r0.load 1 rfl).load 2 rfl
  have r4 := r1.locks (.call _ 1 .verify rfl) rfl
  have r5 := r4.locks (.acquire _ 1 .verify .purge .shared [] rfl (by simp [s0]) rfl) rfl
  have r6 := r5.locks (.enter _ 1 .verify rfl rfl) rfl
  have r7 := r6.locks (.call _ 2 .rm rfl) rfl
  have r8 := r7.locks (.acquire _ 2 .rm .backup .exclusive [] rfl (by simp [s0, put]) rfl) rfl
  have r9 := r8.locks (.enter _ 2 .rm rfl rfl) rfl
  have r10 := r9.body 2 .rm ⟨.rm, [], rfl, rfl⟩ (exGone (ex1.load 2)) trivial (.rm (ex1.load 2) [exA] (by decide +kernel))
  have hb : Body Test.env 1 .verify (exGone (ex1.load 2))
      ((exGone (ex1.load 2)).srcStep 1 (fun s => (Src.verifyMark Test.env id s exA).2)) := .verify _ id exA (by decide +kernel)
  have r11 := r10.body 1 .verify ⟨.verify, [], rfl, rfl⟩ _ trivial hb
  refine ⟨_, _, r10, r11, hb, ?_, ?_⟩ <;> decide +kernel

/-! ### The hypotheses are met -/

theorem covers_of_current {c : Shared} {p : Nat} (hn : Named c.sys.src.repo.files) (h : c.mem p = c.sys.src.repo.scan.history) :
    Covers c p := by
  intro u r hr hs _
  have hru : r.uuid = u := onDisk_uuid hn hr
  exact ⟨r, by rw [h]; exact (Repo.scan_mem hn r).2 (by rw [hru]; exact hr), hru, hs⟩

/-- A first backup and a garbage collection that reads its list after it. -/
def ex8 : Shared := ((⟨exNew, fun _ => []⟩ : Shared).create 2 "a" 10 {"daily"}).load 2
/-- After the backup, execution 1 reads the directory. -/
def ex9 : Shared := (ex8.commit 2 (backup Test.env false (idealRbd [0, 0, 0, 0, 1, 1, 1, 1] [0]) (newRev "a" 10 {"daily"}) (ex8.view 2)).2).load 1

theorem ex8_ready : Ready ex8 2 := ⟨by decide +kernel, by decide +kernel⟩

example : ∃ s, Run Test.env Knows ⟨exNew, fun _ => []⟩ s ∧ s.data = ex9.srcStep 1 (fun s => s.gc.2) ∧
    onDisk s.data.sys.src.repo.files "a" = some exA ∧ exA.server = "" ∧ exA.clean = true := by
  let s0 : State Shared := ⟨fun _ => .idle, fun _ => [], [], ⟨exNew, fun _ => []⟩⟩
  have r0 : Run Test.env Knows ⟨exNew, fun _ => []⟩ s0 := .init
  have r2 := r0.create 2 rfl "a" 10 {"daily"}
  have r3 := r2.load 2 rfl
  have r7 := r3.locks (.call _ 2 .backup rfl) rfl
  have r8 := r7.locks (.acquire _ 2 .backup .backup .exclusive [(.purge, .shared)] rfl (by simp [s0]) rfl) rfl
  have r9 := r8.locks (.acquire _ 2 .backup .purge .shared [] rfl (by simp [s0, put]) rfl) rfl
  have r10 := r9.locks (.enter _ 2 .backup rfl rfl) rfl
  have r11 := r10.body 2 .backup ⟨.backup, [], rfl, rfl⟩ _ ex8_ready
    (.backup ex8 false (idealRbd [0, 0, 0, 0, 1, 1, 1, 1] [0]) (newRev "a" 10 {"daily"}) (by decide +kernel) rfl
      (by decide +kernel) exFirst_works.faithful)
  have r12 := r11.load 1 rfl
  have hn : Named ex9.sys.src.repo.files := by
    have hg := r12.good (Test.collFree _) (Good.initial exNew_initial) (fun _ h => h)
    exact hg.disk.named
  have r13 := r12.locks (.die _ 2) rfl
  have r14 := r13.locks (.call _ 1 .gc rfl) rfl
  have r15 := r14.locks (.acquire _ 1 .gc .purge .exclusive [] rfl (by simp [s0, put]) rfl) rfl
  have r16 := r15.locks (.enter _ 1 .gc rfl rfl) rfl
  have r17 := r16.body 1 .gc ⟨.gc, [], rfl, rfl⟩ _ (covers_of_current (c := ex9) hn rfl) (.gc ex9)
  refine ⟨_, r17, rfl, ?_, ?_, ?_⟩ <;> decide +kernel

/-- C41_no_loss_partial for the run above: the revision restores after the garbage collection. -/
example (s : State Shared) (h : Run Test.env Knows ⟨exNew, fun _ => []⟩ s) (ha : onDisk s.data.sys.src.repo.files "a" = some exA) :=
  C41_no_loss_partial Test.env _ exNew_initial s h (Test.collFree _) exA ha (by decide +kernel) (by decide +kernel)

/-- C41_gc_known_partial: execution 1 has read the directory. -/
example (img : Bytes) (hw : WOK Test.env ex9.sys.src.w) (hd : OnDisk Test.env ex9.sys.src.w "a" img) :=
  C41_gc_known_partial Test.env ex9 1 hw exA (by decide +kernel) (by decide +kernel) img hd

end Verif.Conc
