import Verif.Proofs.BackupAll
/-! # A whole backup run keeps the invariant -/
namespace Verif.Backup
open Verif Verif.Chunked Verif.Spec Verif.Rbd Verif.Repo Verif.Files Verif.Diff

theorem snapName_inj {a b : String} (h : snapName a = snapName b) : a = b := by
  have := congrArg String.toList h
  simp only [snapName, String.toList_append] at this
  exact String.toList_inj.1 (List.append_cancel_left this)

theorem cephGetParent_some {af : Bool} {snaps : Dict String Bytes} {inf : Bool} {repo : Repo} {r p : Rev}
    (hn : (repo.history.map Rev.uuid).Nodup) (hr : r ∈ repo.history) (ht : r.trust ≠ .distrusted)
    (h : cephGetParent af snaps inf repo r = .ok (some p)) :
    p ∈ repo.history ∧ p.uuid ≠ r.uuid ∧ Candidate snaps r p := by
  unfold cephGetParent at h
  split at h
  · cases h
  · cases inf with
    | true =>
      unfold parentLoop at h
      split at h
      · cases h
      · rw [if_pos rfl] at h; cases h
    | false =>
      obtain ⟨a, b, hab⟩ := List.append_of_mem hr
      obtain ⟨res, h1, h2, _⟩ := parentLoop_spec snaps repo (repo.history.length + 1) a r b hab hn ht
        (by rw [hab]; simp; omega)
      rw [h1] at h
      cases h
      obtain ⟨a1, a2, e1, e2, _⟩ := h2 p rfl
      refine ⟨by rw [hab, e1]; simp, ?_, e2⟩
      intro he
      rw [hab, e1] at hn
      simp only [List.map_append, List.map_cons, he, List.nodup_append, List.mem_append, List.mem_cons] at hn
      exact hn.2.2 r.uuid (.inr (.inl rfl)) r.uuid (.inl rfl) rfl

/-- What is known about snapshots: those of backy have the content of the image when they were taken. -/
def SnapsOK (c : Ceph) : Prop := ∀ u d, c.snaps.get? (snapName u) = some d → c.taken.get? u = some d

/-- The state in which a backup of the new revision `r` starts. -/
structure Start (env : Env) (s : Sys) (r : Rev) : Prop where
  mem : Mem env s.ceph.taken s.src
  snaps : SnapsOK s.ceph
  rev : r ∈ s.src.repo.history
  srv : r.server = ""
  trust : r.trust ≠ .distrusted
  incomplete : r.clean = false
  fresh : s.src.w.metas.get? r.uuid = none
  others : ∀ x ∈ s.src.repo.history, x.uuid ≠ r.uuid → x.server = "" → x.clean = true

theorem get?_append_single {V : Type} (d : Dict String V) (k n : String) (v : V) :
    (d ++ [(k, v)] : Dict String V).get? n = (d.get? n).or (if n = k then some v else none) := by
  induction d with
  | nil => simp [Dict.get?, eq_comm]
  | cons e t ih =>
    obtain ⟨a, b⟩ := e
    simp only [List.cons_append, Dict.get?]
    by_cases h : a = n
    · simp [h]
    · rw [if_neg h, if_neg h]; exact ih

theorem Start.snapshot_snaps {env : Env} {s : Sys} {r : Rev} (h : Start env s r)
    (hno : s.ceph.snaps.has (snapName r.uuid) = false) : SnapsOK (s.snapshot r).ceph := by
  intro u d hd
  simp only [Sys.snapshot] at hd ⊢
  rw [get?_append_single] at hd
  rw [Dict.get?_set]
  by_cases hu : u = r.uuid
  · subst hu
    rw [if_pos rfl]
    have : s.ceph.snaps.get? (snapName r.uuid) = none := by
      unfold Dict.has at hno
      cases hx : s.ceph.snaps.get? (snapName r.uuid) with
      | none => rfl
      | some x => rw [hx] at hno; simp at hno
    rw [this] at hd
    simpa using hd
  · rw [if_neg hu]
    rw [if_neg (fun he => hu (snapName_inj he))] at hd
    simp at hd
    exact h.snaps u d hd

/-- Everything stored stays as it is if only the new revision's image is touched. -/
theorem Start.disk_ext {env : Env} {s : Sys} {r : Rev} (h : Start env s r) {w : World} (hw : WOK env w)
    (he : ExtN r.uuid s.src.w w) {img : Bytes} :
    All (fun x => Stored env w (s.ceph.taken.set r.uuid img) x ∧ (x.uuid = r.uuid → x.server = "" ∧ x.clean = false)) s.src.repo := by
  have key : ∀ x ∈ s.src.repo.history, Stored env w (s.ceph.taken.set r.uuid img) x ∧
      (x.uuid = r.uuid → x.server = "" ∧ x.clean = false) := by
    intro x hx
    by_cases hu : x.uuid = r.uuid
    · have : x = r := eq_of_uuid h.mem.sync.nodup hx h.rev hu
      subst this
      exact ⟨fun _ hc => (by rw [h.incomplete] at hc; cases hc), fun _ => ⟨h.srv, h.incomplete⟩⟩
    · refine ⟨fun hs hc => ?_, fun he => absurd he hu⟩
      obtain ⟨c, h1, h2⟩ := h.mem.all.hist x hx hs hc
      exact ⟨c, by rw [Dict.get?_set, if_neg hu]; exact h1, h2.ext he hu⟩
  refine ⟨key, ?_, h.mem.disk.named⟩
  intro u x hx
  exact key x ((h.mem.sync.mem x).2 (by rw [onDisk_uuid h.mem.disk.named hx]; exact hx))

theorem deleteOldSnapshots_sub (o : Rbd) (af : Bool) (repo : Repo) (snaps : Dict String Bytes) (n : String) (d : Bytes)
    (h : (deleteOldSnapshots o af repo snaps).2.get? n = some d) : snaps.get? n = some d := by
  unfold deleteOldSnapshots at h
  split at h
  · exact h
  · dsimp only at h
    rw [Dict.get?_filter snaps (fun k => !(isOld (keepSnapshot af repo) k && !o.snapRmFails k)) n] at h
    split at h
    · exact h
    · cases h

theorem verifyPhase_log (env : Env) (o : Rbd) (uuid : String) (snap : Bytes) (w : World) :
    (verifyPhase env o uuid snap w).2.log = w.log := Ticked.log (verifyPhase_ticked env o uuid snap w)

/-- The parent chosen by the code is stored, and its snapshot has the same content. -/
theorem Start.parent {env : Env} {s : Sys} {r : Rev} (h : Start env s r)
    (hno : s.ceph.snaps.has (snapName r.uuid) = false) {af inf : Bool} {parent : Option Rev}
    (hp : cephGetParent af (s.snapshot r).ceph.snaps inf s.src.repo r = .ok parent) :
    ∃ c, ∀ p, parent = some p → OnDisk env s.src.w p.uuid c ∧ s.ceph.snaps.get? (snapName p.uuid) = some c := by
  cases parent with
  | none => exact ⟨[], fun p hp => by cases hp⟩
  | some p =>
    obtain ⟨q1, q2, q3⟩ := cephGetParent_some h.mem.sync.nodup h.rev h.trust hp
    have hsv : p.server = "" := q3.server.trans h.srv
    obtain ⟨c, c1, c2⟩ := h.mem.all.hist p q1 hsv (h.others p q1 q2 hsv)
    refine ⟨c, fun p' hp' => ?_⟩
    cases hp'
    refine ⟨c2, ?_⟩
    have hs := q3.snap
    unfold Dict.has at hs
    obtain ⟨d, hd⟩ := Option.isSome_iff_exists.1 hs
    have hd2 := h.snapshot_snaps hno p.uuid d hd
    simp only [Sys.snapshot] at hd hd2
    rw [Dict.get?_set, if_neg q2, c1] at hd2
    cases hd2
    rw [get?_append_single, if_neg (fun he => q2 (snapName_inj he))] at hd
    simpa using hd

theorem openWrite_log (s : Src) (uuid : String) (parent : Option Rev) :
    (∀ f w, openWrite s uuid parent = (.ok f, w) → f.w.log = s.w.log) ∧
    (openWrite s uuid parent).2.log = s.w.log := by
  have hopen : ∀ (w : World) (n : String) (m : Mode) (f : S), File.open w n m = .ok f → f.w = w := by
    intro w n m f hf
    unfold File.open at hf
    split at hf
    · split at hf
      · cases hf
      · cases hf; rfl
    · cases hf
    · cases hf; rfl
  have hcopy : ∀ w, copyParent s.w uuid parent = .ok w → w.log = s.w.log := by
    intro w hw
    unfold copyParent at hw
    split at hw
    · cases hw; rfl
    · split at hw
      · cases hw; rfl
      · split at hw
        · cases hw
        · cases hw; rfl
  unfold openWrite
  cases hc : copyParent s.w uuid parent with
  | error e => exact ⟨fun f w h => (by cases h), rfl⟩
  | ok w1 =>
    have h1 := hcopy w1 hc
    dsimp only
    cases ho : File.open w1 uuid wb with
    | error e => exact ⟨fun f w h => (by cases h), h1⟩
    | ok f1 =>
      have h2 := hopen _ _ _ _ ho
      dsimp only
      simp only [containsDistrusted_false]
      refine ⟨fun f w h => ?_, h1⟩
      simp only [Bool.false_eq_true, if_false, Prod.mk.injEq, Except.ok.injEq] at h
      rw [← h.1, h2, h1]

theorem writePhase_log (env : Env) (o : Rbd) (uuid : String) (parent : Option Rev) (s : Src) :
    s.w.log ⊆ (writePhase env o uuid parent s).2.log := by
  obtain ⟨h1, h2⟩ := openWrite_log s uuid parent
  unfold writePhase
  generalize hg : openWrite s uuid parent = g at *
  obtain ⟨g1, w⟩ := g
  cases g1 with
  | error e => dsimp only; rw [← h2]; exact fun _ h => h
  | ok f =>
    intro x hx
    rw [← h1 f w rfl] at hx
    exact closing_log env _ (transfer_log env o uuid parent f hx)

theorem backupBody_log (env : Env) (af : Bool) (o : Rbd) (r : Rev) (image : Bytes) (s : Sys) :
    s.src.w.log ⊆ (backupBody env af o r image s).2.log := by
  unfold backupBody
  split
  · exact fun _ h => h
  · rename_i parent _
    have h := writePhase_log env o r.uuid parent s.src
    split
    · rename_i heq; rw [heq] at h; exact h
    · rename_i heq; rw [heq] at h; rw [verifyPhase_log]; exact h

theorem backupBody_spec {env : Env} {L : List Bytes} (hL : CollFree env.H L) (af : Bool) (o : Rbd) {s : Sys} {r : Rev}
    (h : Start env s r) (hno : s.ceph.snaps.has (snapName r.uuid) = false)
    (hf : Faithful o s.ceph.snaps r.uuid s.ceph.image)
    (hlog : (backupBody env af o r s.ceph.image (s.snapshot r)).2.log ⊆ L) :
    WOK env (backupBody env af o r s.ceph.image (s.snapshot r)).2 ∧
    ExtN r.uuid s.src.w (backupBody env af o r s.ceph.image (s.snapshot r)).2 ∧
    s.src.w.log ⊆ (backupBody env af o r s.ceph.image (s.snapshot r)).2.log ∧
    ∀ v, (backupBody env af o r s.ceph.image (s.snapshot r)).1 = .ok v →
      OnDisk env (backupBody env af o r s.ceph.image (s.snapshot r)).2 r.uuid s.ceph.image := by
  unfold backupBody at hlog ⊢
  have hsrc : (s.snapshot r).src = s.src := rfl
  rw [hsrc] at hlog ⊢
  cases hp : cephGetParent af (s.snapshot r).ceph.snaps o.infoFails s.src.repo r with
  | error e =>
    exact ⟨h.mem.disk.wok, ExtN.refl _ _, fun _ hx => hx, fun v hv => (by cases hv)⟩
  | ok parent =>
    rw [hp] at hlog
    dsimp only at hlog ⊢
    obtain ⟨c, hc⟩ := h.parent hno hp
    have hwl : (writePhase env o r.uuid parent s.src).2.log ⊆ L := by
      split at hlog
      · rename_i heq; rw [heq]; exact hlog
      · rename_i w heq; rw [heq]; rw [verifyPhase_log] at hlog; exact hlog
    obtain ⟨w1, w2, w3, w4⟩ := writePhase_spec hL o h.mem.disk.wok h.fresh (fun p hp => (hc p hp).1) hwl
    have w5 := w4 s.ceph.snaps s.ceph.image hf (fun p hp => (hc p hp).2)
    generalize hg : writePhase env o r.uuid parent s.src = g at *
    obtain ⟨g1, w⟩ := g
    cases g1 with
    | error e => exact ⟨w1, w2, w3, fun v hv => (by cases hv)⟩
    | ok u =>
      have ht := verifyPhase_ticked env o r.uuid s.ceph.image w
      dsimp only at w1 w2 w3 w5 ⊢
      exact ⟨Ticked.wok ht w1, w2.trans (Ticked.ext ht _), by rw [Ticked.log ht]; exact w3,
        fun v _ => Ticked.onDisk ht (w5 rfl)⟩

theorem afterSnapshot_disk {env : Env} (o : Rbd) {s : Sys} {r : Rev} (h : Start env s r) {w : World} (hw : WOK env w)
    (he : ExtN r.uuid s.src.w w) (res : Except PyErr Bool)
    (hres : ∀ v, res = .ok v → OnDisk env w r.uuid s.ceph.image) :
    Disk env (afterSnapshot env o r res { s.src with w }).2.w (s.ceph.taken.set r.uuid s.ceph.image)
      (afterSnapshot env o r res { s.src with w }).2.repo.files ∧
    (afterSnapshot env o r res { s.src with w }).2.w.log = w.log := by
  have hall := h.disk_ext hw he (img := s.ceph.image)
  have hst : All (Stored env w (s.ceph.taken.set r.uuid s.ceph.image)) s.src.repo := hall.mono (fun x hx => hx.1)
  have hcore := Stored.core env w (s.ceph.taken.set r.uuid s.ceph.image)
  have hrS := hst.hist r h.rev
  cases res with
  | ok v =>
    simp only [afterSnapshot]
    refine conclude_disk o r v ?_
    cases v with
    | false => exact Disk.ofAll hw (hst.remove hcore hrS false)
    | true =>
      refine Disk.ofAll hw (hst.store ?_)
      intro _ _
      exact ⟨s.ceph.image, by show (s.ceph.taken.set r.uuid s.ceph.image).get? r.uuid = _; simp, hres true rfl⟩
  | error e =>
    cases e with
    | backend =>
      simp only [afterSnapshot]
      have hd := hst.distrust hcore s.src.repo.localHistory (fun x hx => hst.hist x (List.mem_of_mem_filter hx))
      generalize hg : s.src.repo.distrust s.src.repo.localHistory = g at *
      obtain ⟨g1, g2⟩ := g
      cases g1 with
      | error e => exact ⟨Disk.ofAll hw hd, rfl⟩
      | ok u => exact conclude_disk (s := ⟨g2, w⟩) o r false (Disk.ofAll hw (hd.remove hcore hrS false))
    | _ => exact ⟨Disk.ofAll hw hst, rfl⟩

theorem exitWith_ok {α : Type} {b : Except PyErr α} {e : Except PyErr Unit} {v : α} (h : exitWith b e = .ok v) :
    b = .ok v ∧ e = .ok () := by
  unfold exitWith at h
  split at h
  · cases h
  · exact ⟨h, rfl⟩

theorem afterSnapshot_log {env : Env} (o : Rbd) (r : Rev) (res : Except PyErr Bool) (s : Src) :
    (afterSnapshot env o r res s).2.w.log = s.w.log := by
  have hgc : ∀ s : Src, s.gc.2.w.log = s.w.log := by
    intro s; unfold Src.gc; split
    · rfl
    · exact purge_log _ _
  have hv : ∀ (s : Src) (r : Rev), (Src.verify env o.order s r).2.w.log = s.w.log := by
    intro s r
    have hm : (Src.verifyMark env o.order s r).2.w.log = s.w.log := by
      unfold Src.verifyMark
      split
      · rfl
      · split
        · rfl
        · split <;> rfl
    unfold Src.verify
    split
    · rename_i heq; rw [heq] at hm; exact hm
    · rename_i heq; rw [heq] at hm; rw [hgc]; exact hm
  have hvd : ∀ s : Src, (verifyDistrusted env o s).2.w.log = s.w.log := by
    intro s; unfold verifyDistrusted
    split
    · rfl
    · rw [hv]
  have hcl : ∀ (s : Src) (b : Bool), (conclude env o r b s).2.w.log = s.w.log := by
    intro s b
    unfold conclude
    have := hvd (if b then { s with repo := s.repo.store (finished o r) } else { s with repo := s.repo.remove r })
    have h3 : (if b then { s with repo := s.repo.store (finished o r) } else
      { s with repo := s.repo.remove r } : Src).w = s.w := by cases b <;> rfl
    rw [h3] at this
    split
    · rename_i heq; rw [heq] at this; exact this
    · rename_i heq; rw [heq] at this; exact this
  unfold afterSnapshot
  split
  · exact hcl _ _
  · split
    · rfl
    · exact hcl _ _
  · rfl

/-- The backup keeps everything stored, whatever happens, and a finished one has stored its image. -/
theorem backup_disk {env : Env} {L : List Bytes} (hL : CollFree env.H L) (af : Bool) (o : Rbd) {s : Sys} {r : Rev}
    (h : Start env s r) (hf : Faithful o s.ceph.snaps r.uuid s.ceph.image)
    (hlog : (backup env af o r s).2.src.w.log ⊆ L) :
    Disk env (backup env af o r s).2.src.w (backup env af o r s).2.ceph.taken (backup env af o r s).2.src.repo.files ∧
      SnapsOK (backup env af o r s).2.ceph ∧ s.src.w.log ⊆ (backup env af o r s).2.src.w.log := by
  unfold backup at hlog ⊢
  split
  · exact ⟨h.mem.disk, h.snaps, fun _ hx => hx⟩
  · rename_i h1
    rw [if_neg h1] at hlog
    split
    · exact ⟨h.mem.disk, h.snaps, fun _ hx => hx⟩
    · rename_i h2
      rw [if_neg h2] at hlog
      have hno : s.ceph.snaps.has (snapName r.uuid) = false := by
        simp only [not_or] at h2; simpa using h2.2
      dsimp only at hlog ⊢
      rw [afterSnapshot_log] at hlog ⊢
      obtain ⟨b1, b2, b3, b4⟩ := backupBody_spec hL af o h hno hf hlog
      refine ⟨?_, ?_, b3⟩
      · exact (afterSnapshot_disk o h b1 b2 _ (fun v hv => b4 v (exitWith_ok hv).1)).1
      · intro u d hd
        exact h.snapshot_snaps hno u d (deleteOldSnapshots_sub _ _ _ _ _ _ hd)

end Verif.Backup
