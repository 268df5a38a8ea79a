import Verif.Proofs.Overlap
import Verif.Props.Verify
/-!
# C79: restoring and verifying while other processes work on the repository
-/
namespace Verif.Overlap
open Verif Verif.Chunked Verif.Spec Verif.Rbd Verif.Repo Verif.Files Verif.Backup

theorem gc_metas (s : Src) : s.gc.2.w.metas = s.w.metas := by
  unfold Src.gc
  split
  · rfl
  · exact purge_metas _ _

theorem verifyMark_metas (env : Env) (order : List Hash → List Hash) (s : Src) (r : Rev) :
    (Src.verifyMark env order s r).2.w.metas = s.w.metas := by
  unfold Src.verifyMark
  split
  · rfl
  · split
    · rfl
    · split <;> rfl

theorem verify_metas (env : Env) (order : List Hash → List Hash) (s : Src) (r : Rev) :
    (Src.verify env order s r).2.w.metas = s.w.metas := by
  have hm := verifyMark_metas env order s r
  unfold Src.verify
  split
  · rename_i heq; rw [heq] at hm; exact hm
  · rename_i heq; rw [heq] at hm; rw [gc_metas]; exact hm

theorem verifyDistrusted_metas (env : Env) (o : Rbd) (s : Src) : (verifyDistrusted env o s).2.w.metas = s.w.metas := by
  unfold verifyDistrusted
  split
  · rfl
  · rw [verify_metas]

theorem conclude_metas (env : Env) (o : Rbd) (r : Rev) (b : Bool) (s : Src) : (conclude env o r b s).2.w.metas = s.w.metas := by
  unfold conclude
  have := verifyDistrusted_metas env o (if b then { s with repo := s.repo.store (finished o r) } else { s with repo := s.repo.remove r })
  have h3 : (if b then { s with repo := s.repo.store (finished o r) } else
    { s with repo := s.repo.remove r } : Src).w = s.w := by cases b <;> rfl
  rw [h3] at this
  split
  · rename_i heq; rw [heq] at this; exact this
  · rename_i heq; rw [heq] at this; exact this

theorem afterSnapshot_metas (env : Env) (o : Rbd) (r : Rev) (res : Except PyErr Bool) (s : Src) :
    (afterSnapshot env o r res s).2.w.metas = s.w.metas := by
  unfold afterSnapshot
  split
  · exact conclude_metas _ _ _ _ _
  · split
    · rfl
    · exact conclude_metas _ _ _ _ _
  · rfl

theorem gcSome_metas (left : Hash → Bool) (s : Src) : (gcSome left s).w.metas = s.w.metas := by
  unfold gcSome
  split <;> rfl

theorem backup_metas {env : Env} {L : List Bytes} (hL : CollFree env.H L) (af : Bool) (o : Rbd) {s : Sys} {r : Rev}
    (h : Start env s r) (hf : Faithful o s.ceph.snaps r.uuid s.ceph.image)
    (hlog : (backup env af o r s).2.src.w.log ⊆ L) (n : String) (hn : n ≠ r.uuid) :
    (backup env af o r s).2.src.w.metas.get? n = s.src.w.metas.get? n := by
  unfold backup at hlog ⊢
  split
  · rfl
  · rename_i h1
    rw [if_neg h1] at hlog
    split
    · rfl
    · rename_i h2
      rw [if_neg h2] at hlog
      have hno : s.ceph.snaps.has (snapName r.uuid) = false := by
        simp only [not_or] at h2; simpa using h2.2
      dsimp only at hlog ⊢
      rw [afterSnapshot_log] at hlog
      rw [afterSnapshot_metas]
      obtain ⟨b1, b2, b3, b4⟩ := backupBody_spec hL af o h hno hf hlog
      exact b2.metas n hn

/-- The mapping of an existing image is never changed by any event. -/
theorem step_metas {env : Env} {L : List Bytes} (hL : CollFree env.H L) {s s' : Sys} (h : Good env s)
    (hs : Step env s s') (hlog : s'.src.w.log ⊆ L) {n : String} {m : Option Meta} (hm : s.src.w.metas.get? n = some m) :
    s'.src.w.metas.get? n = some m := by
  have hne : ∀ {uuid}, Fresh s uuid → n ≠ uuid := by
    rintro uuid hu rfl; rw [hu.image] at hm; cases hm
  cases hs with
  | guest img => exact hm
  | backup af o uuid ts tags hu hf =>
    rw [runBackup_eq h hu] at hlog ⊢
    rw [backup_metas hL af o (h.prepared hu ts tags) hf hlog n (hne hu)]
    exact hm
  | killed s2 af o uuid ts tags hu hf hk =>
    have hst := h.prepared hu ts tags
    have hno := prepared_noSnap hu ts tags
    have hf' : Faithful o (s.prepared uuid ts tags).ceph.snaps (newRev uuid ts tags).uuid (s.prepared uuid ts tags).ceph.image := hf
    cases hk with
    | cleaning k => exact hm
    | created => exact hm
    | writing parent v hp hv =>
      exact (hv.metas n (hne hu)).trans hm
    | leaving o' k =>
      obtain ⟨b1, b2, b3, b4⟩ := backupBody_spec hL af o hst hno hf' hlog
      exact (b2.metas n (hne hu)).trans hm
    | completed o' hv =>
      obtain ⟨b1, b2, b3, b4⟩ := backupBody_spec hL af o hst hno hf' hlog
      exact (b2.metas n (hne hu)).trans hm
  | rm revs hr => exact hm
  | expire sch pd now => exact hm
  | distrust revs hr => exact hm
  | tags sch pd action spec tags expect auto force => exact hm
  | verify order r hr => dsimp only; rw [verify_metas]; exact hm
  | verifyKilled order r hr => dsimp only; rw [verifyMark_metas]; exact hm
  | gc => dsimp only; rw [gc_metas]; exact hm
  | gcKilled left => dsimp only; rw [gcSome_metas]; exact hm
  | remote r hr => exact hm
  | drop r => exact hm
  | snapsGone keep => exact hm
  | snapForeign name content hn => exact hm

theorem steps_metas {env : Env} {L : List Bytes} (hL : CollFree env.H L) {s s' : Sys} (h : Good env s)
    (hs : Steps env s s') (hlog : s'.src.w.log ⊆ L) {n : String} {m : Option Meta} (hm : s.src.w.metas.get? n = some m) :
    s'.src.w.metas.get? n = some m := by
  induction hs with
  | nil => exact hm
  | cons h1 h2 ih =>
    have hl : _ ⊆ L := fun _ hx => hlog (h2.log hx)
    exact step_metas hL (h.steps hL h1 hl) h2 hlog (ih hl)

/-! ### Specification -/

/-- The repository has a complete revision of this server with this id. -/
def Holds (s : Sys) (uuid : String) : Prop :=
  ∃ r, onDisk s.src.repo.files uuid = some r ∧ r.server = "" ∧ r.clean = true

/-- While a process works that started in state `s`, others do what they like (any number of events, finished or not, see
`Spec/History.lean`), as long as they do not remove the revision: every access finds the directory in a state that is reached
from `s` in this way.  `L` is everything that was ever hashed. -/
def Meanwhile (env : Env) (L : List Bytes) (s : Sys) (uuid : String) (at_ : Nat → World) : Prop :=
  ∀ n, ∃ s', Steps env s s' ∧ Holds s' uuid ∧ s'.src.w.log ⊆ L ∧ at_ n = s'.src.w

theorem meanwhile_chunk {env : Env} {L : List Bytes} (hL : CollFree env.H L) {s : Sys} (hg : Good env s) {uuid : String}
    {at_ : Nat → World} (hm : Meanwhile env L s uuid at_) (hh : Holds s uuid) (hlog : s.src.w.log ⊆ L) :
    Stable (Mapped s.src.w uuid) at_ s.src.w := by
  rintro n x ⟨m, hm1, hm2⟩
  obtain ⟨s', hs, ⟨r', hr', hs', hc'⟩, hl', he⟩ := hm n
  have hg' := hg.steps hL hs hl'
  obtain ⟨r, hr, hsr, hcr⟩ := hh
  rw [he]
  have hu : r.uuid = uuid := onDisk_uuid hg.disk.named hr
  have hu' : r'.uuid = uuid := onDisk_uuid hg'.disk.named hr'
  obtain ⟨c, _, m1, a1, _, a3, _⟩ := hg.disk.good uuid r hr hsr hcr
  obtain ⟨c', _, m2, b1, _, b3, _⟩ := hg'.disk.good uuid r' hr' hs' hc'
  rw [hu] at a1
  rw [hu'] at b1
  have hkeep := steps_metas hL hg hs hl' hm1
  rw [hm1] at a1
  rw [hkeep] at b1
  cases a1
  cases b1
  obtain ⟨d, hd⟩ := a3 x hm2
  obtain ⟨d', hd'⟩ := b3 x hm2
  obtain ⟨e, e1, e2, e3, _⟩ := hg.disk.wok.good x _ hd
  obtain ⟨e', f1, f2, f3, _⟩ := hg'.disk.wok.good x _ hd'
  cases e1
  cases f1
  rw [hd, hd', hL d (hlog e3) d' (hl' f3) (by rw [e2, f2])]

/-! ### C79 -/

/-- **C79** However other processes work on the repository while a revision is restored - making backups, being killed, expiring,
collecting garbage - as long as the revision itself is not removed: the restore succeeds and gives exactly the content
the image had when the revision was made. -/
theorem C79_restore (env : Env) (s0 s : Sys) (h0 : Initial s0) (hs : Steps env s0 s) (L : List Bytes) (hL : CollFree env.H L)
    (hlog : s.src.w.log ⊆ L) (r : Rev) (hr : onDisk s.src.repo.files r.uuid = some r) (hl : r.server = "") (hc : r.clean = true)
    (at_ : Nat → World) (hm : Meanwhile env L s r.uuid at_) :
    ∃ c, s.ceph.taken.get? r.uuid = some c ∧ (∀ target, restore env at_ s.connect.src.w r target = (.ok (), some c)) ∧
      restoreOut env at_ s.connect.src.w r = (.ok (), c) := by
  have hg := (Good.initial h0).steps hL hs hlog
  have hst := meanwhile_chunk hL hg hm ⟨r, hr, hl, hc⟩ hlog
  have hst' : Stable (Mapped s.connect.src.w r.uuid) at_ s.connect.src.w := hst
  have hmem := hg.disk.connect
  obtain ⟨c, h1, h2⟩ := hmem.disk.good r.uuid r hr hl hc
  have hcoll : CollFree env.H s.connect.src.w.log := fun a ha b hb => hL a (hlog ha) b (hlog hb)
  refine ⟨c, h1, fun target => ?_, ?_⟩
  · rw [restore_eq hst']
    exact C20_restore_file env _ r c hmem.disk.wok h2 hcoll target
  · rw [restoreOut_eq hst']
    exact C20_restore_stdout env _ r c hmem.disk.wok h2 hcoll

/-- **C79** Under the same circumstances a verification of the revision finds nothing wrong: the revision is marked as verified and
not removed. -/
theorem C79_verify (env : Env) (s0 s : Sys) (h0 : Initial s0) (hs : Steps env s0 s) (L : List Bytes) (hL : CollFree env.H L)
    (hlog : s.src.w.log ⊆ L) (r : Rev) (hr : onDisk s.src.repo.files r.uuid = some r) (hl : r.server = "") (hc : r.clean = true)
    (at_ : Nat → World) (hm : Meanwhile env L s r.uuid at_) (order : List Hash → List Hash) (ho : ∀ l, (order l).Perm l) :
    verdict env order at_ s.connect.src r = .ok true := by
  have hg := (Good.initial h0).steps hL hs hlog
  have hst := meanwhile_chunk hL hg hm ⟨r, hr, hl, hc⟩ hlog
  have hmem := hg.disk.connect
  have hmeta : ∀ x ∈ s.connect.src.repo.getHistory true true, ∃ m, s.connect.src.w.metas.get? x.uuid = some (some m) := by
    intro x hx
    simp only [Repo.getHistory, List.mem_filter, Bool.not_true, Bool.false_or, Bool.and_eq_true, Rev.isLocal, decide_eq_true_eq] at hx
    obtain ⟨c, _, m, a, _⟩ := hmem.all.hist x hx.1 hx.2.2 hx.2.1
    exact ⟨m, a⟩
  obtain ⟨c, _, m, a1, a2, a3, a4⟩ := hmem.disk.good r.uuid r hr hl hc
  obtain ⟨l, hcand⟩ : ∃ l, verifyCandidates order s.connect.src r = .ok l := by
    unfold verifyCandidates
    obtain ⟨used, hu⟩ := usedChunks_total (w := s.connect.src.w)
      (l := (s.connect.src.repo.getHistory true true).filter (fun x => decide (x.trust = .verified)))
      (fun x hx => hmeta x (List.mem_of_mem_filter hx)) []
    rw [hu, mappedHashes_some a1]
    exact ⟨_, rfl⟩
  have hl2 := (verifyCandidates_ok ho hcand).1
  have hsub : ∀ x ∈ l, Mapped s.src.w r.uuid x := by
    intro x hx
    exact ((hl2 x).1 hx).1
  unfold verdict
  rw [hcand]
  dsimp only
  rw [firstBad_eq (w := s.connect.src.w) l 0 (fun n x hx => hst n x (hsub x hx)), (firstBad_none_iff _ _ _).2]
  · simp [hl]
  · intro x hx
    obtain ⟨m', b1, b2⟩ := hsub x hx
    have b1' : s.connect.src.w.metas.get? r.uuid = some (some m') := b1
    rw [a1] at b1'
    cases b1'
    obtain ⟨d, hd⟩ := a3 x b2
    obtain ⟨e, e1, e2, _, _⟩ := hmem.disk.wok.good x _ hd
    cases e1
    exact ⟨d, hd, e2⟩

theorem firstBad_none {env : Env} {at_ : Nat → World} : ∀ (l : List Hash) (n : Nat), firstBad env at_ l n = none →
    ∀ h ∈ l, ∃ k, Readable env (at_ k) h
  | [], _, _, h, hh => by cases hh
  | x :: l, n, hf, h, hh => by
    rw [firstBad] at hf
    have hx := Backup.firstBad_none_iff env (at_ n) [x]
    rw [Backup.firstBad] at hx
    cases hr : (Chunk.new (some x)).readExisting env (at_ n) with
    | error e => rw [hr] at hf; cases hf
    | ok c =>
      rw [hr] at hf hx
      rcases List.mem_cons.1 hh with rfl | hh
      · exact ⟨n, hx.1 rfl h (by simp)⟩
      · exact firstBad_none l (n + 1) hf h hh

/-- **C79** Conversely a revision is marked as verified only if every chunk it refers to - apart from those referred to by revisions that
count as verified - was there with the right content at some moment during the verification, whatever happens to the repository
meanwhile. -/
theorem C79_verify_sound (env : Env) (s : Src) (r : Rev) (at_ : Nat → World) (order : List Hash → List Hash) (ho : ∀ l, (order l).Perm l)
    (h : verdict env order at_ s r = .ok true) (x : Hash) (hx : Refers s.w r.uuid x)
    (hv : ∀ v, IsVerified s.repo v → ¬ Refers s.w v.uuid x) : ∃ n, Readable env (at_ n) x := by
  unfold verdict at h
  cases hc : verifyCandidates order s r with
  | error e => rw [hc] at h; cases h
  | ok cand =>
    rw [hc] at h
    dsimp only at h
    cases hf : firstBad env at_ cand 0 with
    | some b => rw [hf] at h; cases h
    | none => exact firstBad_none cand 0 hf x (((verifyCandidates_ok ho hc).1 x).2 ⟨hx, fun ⟨v, v1, v2⟩ => hv v v1 v2⟩)

/-- The first revision of the example. -/
def exRev : Rev := finished (idealRbd [] []) (newRev "a" 10 {"daily"})

/-- The second backup takes place while the first revision is restored: the first chunk is read before it, the second one
afterwards. -/
def exAt (n : Nat) : World := if n ≤ exChanged.src.w.tick + 1 then exChanged.src.w else exSecond.src.w

theorem exMeanwhile : Meanwhile Test.env exSecond.src.w.log exChanged "a" exAt := by
  intro n
  unfold exAt
  split
  · exact ⟨exChanged, .nil _, ⟨exRev, by decide +kernel, rfl, by decide +kernel⟩, by
      have h : Step Test.env exChanged exSecond := .backup _ _ _ _ _ _ exChanged_fresh exSecond_works.faithful
      exact h.log, rfl⟩
  · exact ⟨exSecond, .cons (.nil _) (.backup _ _ _ _ _ _ exChanged_fresh exSecond_works.faithful),
      ⟨exRev, by decide +kernel, rfl, by decide +kernel⟩, fun _ h => h, rfl⟩

/-- The hypotheses of C79 are met. -/
example : onDisk exChanged.src.repo.files exRev.uuid = some exRev ∧
    (∀ m, exChanged.src.w.metas.get? exRev.uuid = some (some m) → m.mapping.keys.Nodup) ∧
    restore Test.env exAt exChanged.connect.src.w exRev (some [7]) = (.ok (), some [0, 0, 0, 0, 1, 1, 1, 1]) ∧
    verdict Test.env id exAt exChanged.connect.src exRev = .ok true := by
  have h1 : onDisk exChanged.src.repo.files exRev.uuid = some exRev := by decide +kernel
  have h2 : exChanged.src.w.metas.get? exRev.uuid = some (some ⟨[(0, Test.hash [0, 0, 0, 0]), (1, Test.hash [1, 1, 1, 1])], 8⟩) := by
    decide +kernel
  refine ⟨h1, ?_, by decide +kernel, by decide +kernel⟩
  intro m hm
  rw [h2] at hm
  cases hm
  decide

/-- Whereas a restore fails if its revision is removed and garbage is collected in the meantime. -/
example : (restore Test.env (fun _ => (World.purge exSecond.src.w [])) exChanged.connect.src.w exRev none).1 ≠ .ok () := by
  decide +kernel

/-! ### The theorems of this file applied to the backup running beside the restore -/

theorem exAt_meanwhile : Meanwhile Test.env (exChanged.src.w.log ++ exSecond.src.w.log) exChanged "a" exAt := by
  intro n
  by_cases hn : n ≤ exChanged.src.w.tick + 1
  · exact ⟨exChanged, .nil _, ⟨exRev, by decide +kernel, by decide +kernel, by decide +kernel⟩,
      fun _ h => List.mem_append.2 (.inl h), by rw [exAt, if_pos hn]⟩
  · exact ⟨exSecond, .cons (.nil _) (.backup _ _ _ _ _ _ exChanged_fresh exSecond_works.faithful),
      ⟨exRev, by decide +kernel, by decide +kernel, by decide +kernel⟩,
      fun _ h => List.mem_append.2 (.inr h), by rw [exAt, if_neg hn]⟩

/-- C79_restore, C79_verify, C79_verify_sound -/
example := C79_restore Test.env exNew exChanged exNew_initial exChanged_steps _ (Test.collFree _)
  (fun _ h => List.mem_append.2 (.inl h)) exRev (by decide +kernel) (by decide +kernel) (by decide +kernel) exAt exAt_meanwhile
example := C79_verify Test.env exNew exChanged exNew_initial exChanged_steps _ (Test.collFree _)
  (fun _ h => List.mem_append.2 (.inl h)) exRev (by decide +kernel) (by decide +kernel) (by decide +kernel) exAt exAt_meanwhile
  id (fun _ => List.Perm.refl _)
example (x : Hash) (hx : Refers exChanged.connect.src.w "a" x) (hv : ∀ v, IsVerified exChanged.connect.src.repo v → ¬ Refers exChanged.connect.src.w v.uuid x) :=
  C79_verify_sound Test.env exChanged.connect.src exRev exAt id (fun _ => List.Perm.refl _) (by decide +kernel) x hx hv

end Verif.Overlap
