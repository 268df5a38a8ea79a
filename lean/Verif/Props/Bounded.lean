import Verif.Proofs.Fits
import Verif.Props.Recovery
import Verif.Proofs.Damage
import Verif.Props.Overlap
import Verif.Props.Retention
/-!
# Property C135: the storage a job needs is bounded
-/
set_option linter.dupNamespace false
namespace Verif.Bounded
open Verif Verif.Chunked Verif.Spec Verif.Rbd Verif.Repo Verif.Backup Verif.Diff Verif.Timeline Verif.Files Verif.Recovery Verif.Overlap

/-- The mapping of every complete revision of this server has no entry behind the end of the image. -/
def Neat (env : Env) (s : Sys) : Prop :=
  ∀ u r, onDisk s.src.repo.files u = some r → r.server = "" → r.clean = true → Tidy env s.src.w u

theorem named_core (uuid : String) (Q : Prop) : Core (fun r => r.uuid = uuid → r.server = "" → r.clean = true → Q) := by
  intro r r' h h1 h2 h3 _ h5 h6 h7
  have hc : r.clean = true := by rw [Rev.clean, h3] at h7; exact h7
  exact h (h1.symm.trans h5) (h2.symm.trans h6) hc

theorem body_tidy {env : Env} {L : List Bytes} (hL : CollFree env.H L) {af : Bool} {o : Rbd} {s : Sys} {r : Rev}
    (h : Start env s r) (hno : s.ceph.snaps.has (snapName r.uuid) = false) (hf : Faithful o s.ceph.snaps r.uuid s.ceph.image)
    (hlog : (backupBody env af o r s.ceph.image (s.snapshot r)).2.log ⊆ L)
    (ht : ∀ x ∈ s.src.repo.history, x.uuid ≠ r.uuid → x.server = "" → Tidy env s.src.w x.uuid) (v : Bool)
    (hok : (backupBody env af o r s.ceph.image (s.snapshot r)).1 = .ok v) :
    Tidy env (backupBody env af o r s.ceph.image (s.snapshot r)).2 r.uuid := by
  unfold backupBody at hlog hok ⊢
  have hsrc : (s.snapshot r).src = s.src := rfl
  rw [hsrc] at hlog hok ⊢
  cases hp : cephGetParent af (s.snapshot r).ceph.snaps o.infoFails s.src.repo r with
  | error e => rw [hp] at hok; cases hok
  | ok parent =>
    rw [hp] at hlog hok
    dsimp only at hlog hok ⊢
    obtain ⟨c, hc⟩ := h.parent hno hp
    have hwl : (writePhase env o r.uuid parent s.src).2.log ⊆ L := by
      split at hlog
      · rename_i heq; rw [heq]; exact hlog
      · rename_i w heq; rw [heq]; rw [verifyPhase_log] at hlog; exact hlog
    have hw := writePhase_tidy hL o h.mem.disk.wok h.fresh (fun p hp => (hc p hp).1) hwl
      (fun p hpp => by
        subst hpp
        obtain ⟨q1, q2, q3⟩ := cephGetParent_some h.mem.sync.nodup h.rev h.trust hp
        exact ht p q1 q2 (q3.server.trans h.srv))
      (fun p hpp => by
        obtain ⟨d, k, hv, _, hk⟩ := hf.diff p.uuid c (hc p hpp).2
        exact ⟨d, hv, k, hk⟩)
    generalize hg : writePhase env o r.uuid parent s.src = g at *
    obtain ⟨g1, w⟩ := g
    cases g1 with
    | error e => cases hok
    | ok u => exact Ticked.tidy (verifyPhase_ticked env o r.uuid s.ceph.image w) (hw rfl)

/-- A backup that completes its revision has stored a mapping without entries behind the end of the image. -/
theorem backup_new {env : Env} {L : List Bytes} (hL : CollFree env.H L) {af : Bool} {o : Rbd} {s : Sys} {r : Rev}
    (h : Start env s r) (hf : Faithful o s.ceph.snaps r.uuid s.ceph.image)
    (hlog : (backup env af o r s).2.src.w.log ⊆ L)
    (ht : ∀ x ∈ s.src.repo.history, x.uuid ≠ r.uuid → x.server = "" → Tidy env s.src.w x.uuid)
    (x : Rev) (hx : onDisk (backup env af o r s).2.src.repo.files r.uuid = some x) (hl : x.server = "") (hc : x.clean = true) :
    Tidy env (backup env af o r s).2.src.w r.uuid := by
  have hall : ∀ Q : Prop, All (fun x => x.uuid = r.uuid → x.server = "" → x.clean = true → Q) s.src.repo := by
    intro Q
    have hh : ∀ x ∈ s.src.repo.history, x.uuid = r.uuid → x.server = "" → x.clean = true → Q := by
      intro x hx hu _ hc
      have : x = r := eq_of_uuid h.mem.sync.nodup hx h.rev hu
      rw [this, h.incomplete] at hc
      cases hc
    exact ⟨hh, fun u x hx => hh x ((h.mem.sync.mem x).2 (by rw [onDisk_uuid h.mem.disk.named hx]; exact hx)), h.mem.disk.named⟩
  unfold backup at hx hlog ⊢
  split at hx
  · rename_i h1
    exact ((hall _).disk _ _ hx (onDisk_uuid h.mem.disk.named hx) hl hc)
  · rename_i h1
    rw [if_neg h1] at hlog ⊢
    split at hx
    · rename_i h2
      exact ((hall _).disk _ _ hx (onDisk_uuid h.mem.disk.named hx) hl hc)
    · rename_i h2
      rw [if_neg h2] at hlog ⊢
      have hno : s.ceph.snaps.has (snapName r.uuid) = false := by
        simp only [not_or] at h2; simpa using h2.2
      dsimp only at hx hlog ⊢
      rw [afterSnapshot_log] at hlog
      have hA := all_afterSnapshot' (env := env) (o := o)
        (named_core r.uuid (∃ v, (backupBody env af o r s.ceph.image (s.snapshot r)).1 = .ok v))
        (s := { s.src with w := (backupBody env af o r s.ceph.image (s.snapshot r)).2 }) (hall _) (r := r)
        (fun _ _ hc => by rw [h.incomplete] at hc; cases hc)
        (exitWith (backupBody env af o r s.ceph.image (s.snapshot r)).1 (deleteOldSnapshots o af s.src.repo (s.snapshot r).ceph.snaps).1)
        (fun v hv _ _ _ => ⟨v, (exitWith_ok hv).1⟩)
      obtain ⟨v, hv⟩ := hA.disk _ _ hx (onDisk_uuid hA.named hx) hl hc
      have hT := body_tidy hL h hno hf hlog ht v hv
      intro m hm
      rw [afterSnapshot_metas] at hm
      exact hT m hm

/-- A revision that an event has made has a mapping without entries behind the end of its image. -/
theorem step_new {env : Env} {L : List Bytes} (hL : CollFree env.H L) {s s' : Sys} (hg : Good env s) (hneat : Neat env s)
    (hs : Step env s s') (hlog : s'.src.w.log ⊆ L) (u : String) (hu : Fresh s u) (r : Rev)
    (hr : onDisk s'.src.repo.files u = some r) (hl : r.server = "") (hc : r.clean = true) : Tidy env s'.src.w u := by
  have hn := hg.disk.named
  have hP : ∀ Q : Prop, Core (fun r => r.uuid = u → r.server = "" → r.clean = true → Q) := named_core u
  have h : ∀ v r, onDisk s.src.repo.files v = some r → r.uuid = u → r.server = "" → r.clean = true → False := by
    intro v r hr hru
    refine absurd hu (not_fresh (r := r) ?_)
    rw [← hru, onDisk_uuid hn hr]; exact hr
  have hP := hP False
  have hall : All (fun r => r.uuid = u → r.server = "" → r.clean = true → False) s.connect.src.repo := connect_all hn h
  have hall' : All (fun r => r.uuid = u → r.server = "" → r.clean = true → False) s.src.repo.scan := hall
  have hnew : ∀ uuid ts tags, (newRev uuid ts tags).uuid = u → (newRev uuid ts tags).server = "" → (newRev uuid ts tags).clean = true →
      False := fun uuid ts tags _ _ hc => by simp [newRev, Rev.clean, Dict.has, Dict.get?] at hc
  have tidy : ∀ uuid ts tags, Fresh s uuid → ∀ x ∈ (s.prepared uuid ts tags).src.repo.history, x.uuid ≠ (newRev uuid ts tags).uuid → x.server = "" →
      Tidy env (s.prepared uuid ts tags).src.w x.uuid := by
    intro uuid ts tags hu x hx hne hsv
    have hl : All (fun x => x.uuid ≠ uuid → x.server = "" → x.clean = true → Tidy env s.src.w x.uuid) (s.prepared uuid ts tags).src.repo := by
      have hQ : Core (fun x => x.uuid ≠ uuid → x.server = "" → x.clean = true → Tidy env s.src.w x.uuid) := by
        intro r r' h h1 h2 h3 _ h5 h6 h7
        have hc : r.clean = true := by rw [Rev.clean, h3] at h7; exact h7
        rw [h1] at h5 ⊢
        exact h h5 (h2.symm.trans h6) hc
      refine (((connect_all hn ?_).clean hQ).writeInfo (fun hne => absurd rfl hne)).scan
      intro v r hr _ h2 h3
      rw [onDisk_uuid hn hr]
      exact hneat v r hr h2 h3
    exact hl.hist x hx hne hsv ((hg.prepared hu ts tags).others x hx hne hsv)
  have others : All (fun r => r.uuid = u → r.server = "" → r.clean = true → False) s'.src.repo → Tidy env s'.src.w u := fun h2 =>
    (h2.disk _ _ hr (onDisk_uuid h2.named hr) hl hc).elim
  cases hs with
  | guest img => exact (h _ r hr (onDisk_uuid hn hr) hl hc).elim
  | backup af o uuid ts tags hu' hf =>
    by_cases he : uuid = u
    · subst he
      rw [runBackup_eq hg hu'] at hr hlog ⊢
      exact backup_new hL (hg.prepared hu' ts tags) hf hlog (tidy uuid ts tags hu') r hr hl hc
    · exact others (runBackup_all hP env af o uuid ts tags (hnew uuid ts tags) (fun h => absurd h he) s.connect hall)
  | killed s2 af o uuid ts tags hu' hf hk =>
    have hcl : All (fun r => r.uuid = u → r.server = "" → r.clean = true → False) (s.prepared uuid ts tags).src.repo :=
      ((hall.clean hP).writeInfo (hnew uuid ts tags)).scan
    cases hk with
    | cleaning k =>
      have h2 : All (fun r => r.uuid = u → r.server = "" → r.clean = true → False) (cleanUpTo k s.connect.src.repo) := by
        unfold cleanUpTo
        refine All.foldl _ (fun s r hs hr => ?_) _ hall (fun r hr => hall.hist r (List.mem_of_mem_filter (List.mem_of_mem_take hr)))
        split
        · exact hs
        · exact hs.remove hP hr false
      exact others h2
    | created => exact others hcl
    | writing parent v hp hv => exact others hcl
    | leaving o' k =>
      have h2 := hcl.distrust hP ((s.prepared uuid ts tags).src.repo.localHistory.take k)
        (fun x hx => hcl.hist x (List.mem_of_mem_filter (List.mem_of_mem_take hx)))
      exact others h2
    | completed o' hv =>
      by_cases he : uuid = u
      · subst he
        exact body_tidy hL (hg.prepared hu' ts tags) (prepared_noSnap hu' ts tags) hf hlog (tidy uuid ts tags hu') true hv
      · exact others (hcl.store (r := finished o (newRev uuid ts tags)) (fun h => absurd h he))
  | rm revs hx =>
    have h2 := hall.rm hP revs (fun r hy => hall.hist r (hx r hy))
    exact others h2
  | expire sch pd now =>
    have h2 := hall.expire hP sch pd now
    exact others h2
  | distrust revs hx =>
    have h2 := hall.distrust hP revs (fun r hy => hall.hist r (hx r hy))
    exact others h2
  | tags sch pd action spec tags expect auto force =>
    have h2 := hall.tagsOp hP sch pd action spec tags expect auto force
    exact others h2
  | verify order x hx =>
    have h2 := all_verifyMark hP env order (s := s.connect.src) hall (hall.hist x hx)
    rw [← verify_repo] at h2
    exact others h2
  | verifyKilled order x hx =>
    have h2 := all_verifyMark hP env order (s := s.connect.src) hall (hall.hist x hx)
    exact others h2
  | gc =>
    have hrepo : s.connect.src.gc.2.repo = s.connect.src.repo := gc_repo _
    have hr' : onDisk s.connect.src.gc.2.repo.files u = some r := hr
    rw [hrepo] at hr'
    exact (h _ r hr' (onDisk_uuid hn hr') hl hc).elim
  | gcKilled left =>
    have hrepo : (gcSome left s.connect.src).repo = s.connect.src.repo := gcSome_repo _ _
    have hr' : onDisk (gcSome left s.connect.src).repo.files u = some r := hr
    rw [hrepo] at hr'
    exact (h _ r hr' (onDisk_uuid hn hr') hl hc).elim
  | remote x hx =>
    have h2 := hall'.writeInfo (r := x) (fun _ he => absurd he hx)
    exact (h2.disk _ _ hr (onDisk_uuid h2.named hr) hl hc).elim
  | drop x =>
    have h2 := hall'.drop x
    exact (h2.disk _ _ hr (onDisk_uuid h2.named hr) hl hc).elim
  | snapsGone keep => exact (h _ r hr (onDisk_uuid hn hr) hl hc).elim
  | snapForeign name content hx => exact (h _ r hr (onDisk_uuid hn hr) hl hc).elim

theorem step_neat {env : Env} {L : List Bytes} (hL : CollFree env.H L) {s s' : Sys} (hg : Good env s) (hneat : Neat env s)
    (hs : Step env s s') (hlog : s'.src.w.log ⊆ L) : Neat env s' := by
  intro u r hr hl hc
  have hn' : Named s'.src.repo.files := (hg.step hL hs hlog).disk.named
  rcases step_origin hg.disk.named hs u r hr hl with hf | ⟨r0, h0, h1, h2, _⟩
  · rw [onDisk_uuid hn' hr] at hf
    exact step_new hL hg hneat hs hlog u hf r hr hl hc
  · rw [onDisk_uuid hn' hr] at h0
    have hl0 : r0.server = "" := h1.trans hl
    have hc0 : r0.clean = true := by rw [Rev.clean, h2]; exact hc
    obtain ⟨c, _, m, hm, _⟩ := hg.disk.good u r0 h0 hl0 hc0
    rw [onDisk_uuid hg.disk.named h0] at hm
    have := step_metas hL hg hs hlog hm
    intro m' hm'
    rw [this] at hm'
    cases hm'
    exact hneat u r0 h0 hl0 hc0 m hm

theorem steps_neat {env : Env} {L : List Bytes} (hL : CollFree env.H L) {s s' : Sys} (hg : Good env s) (hneat : Neat env s)
    (hs : Steps env s s') (hlog : s'.src.w.log ⊆ L) : Neat env s' := by
  induction hs with
  | nil => exact hneat
  | cons h1 h2 ih =>
    have hl : _ ⊆ L := fun _ hx => hlog (h2.log hx)
    exact step_neat hL (hg.steps hL h1 hl) (ih hl) h2 hlog

theorem Within.card {cs : Nat} (hcs : 0 < cs) {mapping : Dict Nat Hash} {size : Nat} (h : Within cs mapping size) :
    mapping.values.length ≤ size / cs + 1 := by
  have hsub : mapping.keys ⊆ List.range (size / cs + 1) := by
    intro id hid
    rw [List.mem_range, Nat.lt_succ_iff, Nat.le_div_iff_mul_le hcs]
    exact h.within id hid
  have := (List.subperm_of_subset h.nodup hsub).length_le
  rw [List.length_range] at this
  simpa [Dict.values, Dict.keys] using this

/-- The size of the image when the snapshot of a revision was taken. -/
def imageSize (s : Sys) (u : String) : Nat := ((s.ceph.taken.get? u).getD []).length

/-- The names of the chunk files. -/
def chunkFiles (w : World) : Finset Hash := w.ls.toFinset

theorem mem_chunkFiles {w : World} {h : Hash} : h ∈ chunkFiles w ↔ ∃ x, w.chunks.get? h = some x := by
  unfold chunkFiles World.ls
  rw [List.mem_toFinset, Dict.mem_keys_iff, Option.isSome_iff_exists]

/-- The hashes in the mapping file of an image. -/
def mapped (w : World) (u : String) : List Hash :=
  match w.metas.get? u with
  | some (some m) => m.mapping.values
  | _ => []

/-- **C135** After any history in which the backups that left a revision were completed: garbage collection succeeds, and afterwards there are at
most as many chunk files as the images of the local revisions have chunks (and one more for each), none larger than a chunk. -/
theorem C135_chunks_bounded (env : Env) (s0 s : Sys) (h0 : Initial s0) (hs : Steps env s0 s) (hcoll : CollFree env.H s.src.w.log)
    (hcl : ∀ u r, onDisk s.src.repo.files u = some r → r.server = "" → r.clean = true) :
    s.connect.src.gc.1 = .ok () ∧
    (chunkFiles s.connect.src.gc.2.w).card ≤
      ((s.src.repo.scan.history.filter (fun r => decide (r.server = ""))).map (fun r => imageSize s r.uuid / env.cs + 1)).sum ∧
    ∀ h x, s.connect.src.gc.2.w.chunks.get? h = some x → ∃ d, x = some d ∧ d.length ≤ env.cs := by
  have hg := (Good.initial (env := env) h0).steps hcoll hs (fun _ h => h)
  have hneat : Neat env s := steps_neat hcoll (Good.initial (env := env) h0)
    (fun u r hr => by rw [h0.files] at hr; cases hr) hs (fun _ h => h)
  have hn := hg.disk.named
  have hmem : ∀ r, r ∈ s.connect.src.repo.localHistory ↔ r ∈ s.src.repo.scan.history.filter (fun r => decide (r.server = "")) := by
    intro r
    rw [mem_localHistory, List.mem_filter, decide_eq_true_eq]; rfl
  have hdat : ∀ r ∈ s.src.repo.scan.history.filter (fun r => decide (r.server = "")),
      ∃ m, s.src.w.metas.get? r.uuid = some (some m) ∧ m.mapping.values.length ≤ imageSize s r.uuid / env.cs + 1 := by
    intro r hr
    rw [List.mem_filter, decide_eq_true_eq] at hr
    have hd := (Repo.scan_mem hn r).1 hr.1
    have hc := hcl _ r hd hr.2
    obtain ⟨c, h1, m, h2, h3, _⟩ := hg.disk.good _ r hd hr.2 hc
    refine ⟨m, h2, ?_⟩
    have hw := hneat _ r hd hr.2 hc m h2
    have := Within.card env.cs_pos hw
    rw [h3] at this
    unfold imageSize
    rw [h1]
    exact this
  have hok : s.connect.src.gc.1 = .ok () :=
    (C08_gc_succeeds_iff s.connect.src).1.2 (fun r hr => by
      obtain ⟨m, hm, _⟩ := hdat r ((hmem r).1 hr)
      exact ⟨m, hm⟩)
  refine ⟨hok, ?_, ?_⟩
  · obtain ⟨_, hno, _⟩ := C08_gc_exact s.connect.src hok
    have hsub : chunkFiles s.connect.src.gc.2.w ⊆
        ((s.src.repo.scan.history.filter (fun r => decide (r.server = ""))).flatMap (fun r => mapped s.src.w r.uuid)).toFinset := by
      intro h hh
      obtain ⟨x, hx⟩ := mem_chunkFiles.1 hh
      have href : Referenced s.connect.src h := by
        by_contra hn
        rw [hno h hn] at hx
        cases hx
      obtain ⟨r, hr, m, hm, hv⟩ := href
      rw [List.mem_toFinset, List.mem_flatMap]
      refine ⟨r, (hmem r).1 hr, ?_⟩
      have hm' : s.src.w.metas.get? r.uuid = some (some m) := hm
      unfold mapped
      rw [hm']
      exact hv
    refine (Finset.card_le_card hsub).trans ((List.toFinset_card_le _).trans ?_)
    rw [List.length_flatMap]
    refine List.sum_le_sum ?_
    intro r hr
    obtain ⟨m, hm, hlen⟩ := hdat r hr
    unfold mapped
    rw [hm]
    exact hlen
  · intro h x hx
    have hw : WOK env s.connect.src.gc.2.w := C08_gc_seen_sound env s.connect.src hg.disk.connect.disk.wok
    obtain ⟨d, h1, _, _, h2⟩ := hw.good h x hx
    exact ⟨d, h1, h2⟩

/-- After every run of a job the revisions of this server are complete. -/
theorem passes_complete {sch : Schedule} (hs : GoodSchedule sch) {spread late long : Int} {start files : Dict String RevFile} {l : List Made}
    (h : PassesWith sch spread late long start l files) (hempty : ∀ u r, onDisk start u = some r → r.server ≠ "") :
    ∀ u r, onDisk files u = some r → r.server = "" → r.clean = true := by
  induction h with
  | nil hn => intro u r hr hl; exact absurd hl (hempty u r hr)
  | exchange l files files' h0 h ih => intro u r hr hl; exact ih u r ((h.same u r hl).2 hr) hl
  | cons x l before mid pulled after h0 fresh soon hm ih =>
    have hmid : ∀ u r, onDisk mid u = some r → r.server = "" → r.clean = true := by
      intro u r hr hl
      by_cases hu : u = x.pass.uuid
      · obtain ⟨y, h1, _, _, h2, _⟩ := hm.backs.new
        rw [hu, h1] at hr
        cases hr
        exact h2
      · obtain ⟨r0, h1, h2, h3⟩ := hm.backs.only u r hr hl hu
        have hn := h0.named hs
        have hr0 : r0.uuid = u := onDisk_uuid hn h1
        obtain ⟨r', h4, _, _, _, h5⟩ := hm.backs.kept r0 (by rw [hr0]; exact h1) h2 h3 (by rw [hr0]; exact hu)
        rw [hr0, hr] at h4
        cases h4
        exact h5
    have hpul : ∀ u r, onDisk pulled u = some r → r.server = "" → r.clean = true :=
      fun u r hr hl => hmid u r ((hm.pulls.same u r hl).2 hr) hl
    have hP : Core (fun r : Rev => r.server = "" → r.clean = true) := by
      intro r r' h h1 h2 h3 _ h4
      rw [Rev.clean, h3]
      exact h (h2.symm.trans h4)
    have hall : All (fun r : Rev => r.server = "" → r.clean = true) (connected pulled) :=
      ⟨fun r hr => hpul _ r ((mem_connected hm.pulls.named r).1 hr), hpul, hm.pulls.named⟩
    intro u r hr
    rw [hm.expires] at hr
    exact (hall.expire hP sch x.pass.pd x.pass.expiry).disk u r hr

/-- **C135** However long a job runs: if the image never had more than `M` bytes, there are after every run and the garbage collection at its end
at most `(3 * keep + 2)` for each tag of the schedule times the number of chunks of an image (plus one) chunk files, and none is larger than
a chunk. -/
theorem C135_storage_bounded (env : Env) (s0 s : Sys) (h0 : Initial s0) (hsteps : Steps env s0 s) (hcoll : CollFree env.H s.src.w.log)
    (sch : Schedule) (m spread late long : Int) (hs : GoodSchedule sch) (hp : Proper sch m) (hlate : late < m)
    (start : Dict String RevFile) (l : List Made) (h : PassesWith sch spread late long start l s.src.repo.files)
    (hempty : ∀ u r, onDisk start u = some r → r.server ≠ "") (M : Nat) (hM : ∀ u, imageSize s u ≤ M) :
    s.connect.src.gc.1 = .ok () ∧
    (chunkFiles s.connect.src.gc.2.w).card ≤ (sch.map (fun e => 3 * e.2.keep + 2)).sum * (M / env.cs + 1) ∧
    ∀ h x, s.connect.src.gc.2.w.chunks.get? h = some x → ∃ d, x = some d ∧ d.length ≤ env.cs := by
  obtain ⟨h1, h2, h3⟩ := C135_chunks_bounded env s0 s h0 hsteps hcoll (passes_complete hs h hempty)
  refine ⟨h1, h2.trans ?_, h3⟩
  have hlen := C87_bounded_with_peers sch m spread late long hs hp hlate start s.src.repo.files l h hempty
  refine (List.sum_le_card_nsmul _ (M / env.cs + 1) ?_).trans ?_
  · intro n hn
    obtain ⟨r, _, rfl⟩ := List.mem_map.1 hn
    exact Nat.add_le_add_right (Nat.div_le_div_right (hM _)) 1
  · rw [List.length_map]
    change _ * (M / env.cs + 1) ≤ _
    exact Nat.mul_le_mul_right _ hlen

/-! ### Concrete cases -/

theorem exSecondNight_steps : Steps Test.env exNew exSecondNight := exSecondNight_timed.steps

theorem exSecondNight_taken : exSecondNight.ceph.taken = [("a", [0, 0, 0, 0, 1, 1, 1, 1]), ("b", [0, 0, 0, 0, 2, 2, 2, 2])] := by decide +kernel

theorem exSecondNight_size (u : String) : imageSize exSecondNight u ≤ 8 := by
  unfold imageSize
  rw [exSecondNight_taken]
  simp only [Dict.get?]
  split
  · decide
  · split <;> decide

theorem makes_with {p : Pass} {sch : Schedule} {spread late long t : Int} {tags : Finset String} {before mid after : Dict String RevFile}
    (hn : Named before) (h : p.Makes sch spread late long t tags before mid after) :
    p.MakesWith sch spread late long t tags before mid mid after :=
  ⟨h.era, h.fresh, h.planned, h.inTime, h.backs.toLocal hn, SameLocal.refl h.backs.named, h.expires⟩

theorem exKeepPassesWith : PassesWith exKeep 0 (seconds 60) (seconds 1000) []
    [⟨exP, seconds (101 * DAY), {"daily"}⟩, ⟨exQ, seconds (100 * DAY), {"daily", "weekly"}⟩] exMidB :=
  .cons _ _ exMidA exMidB exMidB exMidB (.cons _ _ [] exMidA exMidA exMidA (.nil ⟨by decide, by simp⟩) (by simp) (by simp)
    (makes_with ⟨by decide, by simp⟩ exKeep1)) (by decide)
    (by intro q hq; cases hq; refine ⟨by decide, fun tag => ?_⟩; show seconds _ ≤ seconds _; decide) (makes_with exMidA_named exKeep2)

/-- Test (C135): two nights, a schedule that keeps five daily and one weekly revision, an image of two chunks. -/
example : exSecondNight.connect.src.gc.1 = .ok () ∧ (chunkFiles exSecondNight.connect.src.gc.2.w).card ≤ 66 := by
  have h := C135_storage_bounded Test.env exNew exSecondNight exNew_initial exSecondNight_steps (Test.collFree _) exKeep (seconds DAY) 0
    (seconds 60) (seconds 1000) exKeep_good exKeep_proper (by decide) [] _ (by rw [exSecondNight_files]; exact exKeepPassesWith)
    (fun u r h => by cases h) 8 exSecondNight_size
  exact ⟨h.1, h.2.1.trans (by decide)⟩

/-- Test (C135): what there is: the chunk both images share, and one of each. -/
example : (chunkFiles exSecondNight.connect.src.gc.2.w).card = 3 := by decide +kernel

end Verif.Bounded
