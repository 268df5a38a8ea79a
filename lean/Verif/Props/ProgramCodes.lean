import Verif.Props.ExitCodes
import Verif.Props.Gc
/-!
# C95: the exit codes of the program of the source
-/
namespace Verif.Commands
open Verif Verif.Chunked Verif.Spec Verif.Rbd Verif.Repo Verif.Files Verif.Backup Verif.Cli Verif.Repo.Spec

/-- **C95** `backy-rbd gc` gives 0 exactly if it gets the lock and the mapping file of every local revision is readable; then exactly
the chunks are left to which one of them refers.  Otherwise it gives 1 and deletes nothing. -/
theorem C95_gc (busy : Bool) (s : Sys) :
    let out := mainGc busy s
    (out.1 = 0 ↔ busy = false ∧ ∀ r ∈ s.src.repo.scan.localHistory, ∃ m, s.src.w.metas.get? r.uuid = some (some m)) ∧
    (out.1 = 0 → ∀ h, ((∃ r ∈ s.src.repo.scan.localHistory, ∃ m, s.src.w.metas.get? r.uuid = some (some m) ∧ h ∈ m.mapping.values) →
        out.2.src.w.chunks.get? h = s.src.w.chunks.get? h) ∧
      ((¬ ∃ r ∈ s.src.repo.scan.localHistory, ∃ m, s.src.w.metas.get? r.uuid = some (some m) ∧ h ∈ m.mapping.values) →
        out.2.src.w.chunks.get? h = none)) ∧
    (out.1 ≠ 0 → out.1 = 1 ∧ Same s out.2) := by
  dsimp only
  have h1 := C08_gc_succeeds_iff s.connect.src
  have h2 := C08_gc_exact s.connect.src
  unfold mainGc
  cases busy with
  | true =>
    rw [if_pos rfl]
    exact ⟨⟨fun h => (by cases h), fun h => (by cases h.1)⟩, fun h => (by cases h), fun _ => ⟨rfl, ⟨rfl, rfl, rfl⟩, rfl⟩⟩
  | false =>
    rw [if_neg (by decide)]
    generalize s.connect.src.gc = g at *
    obtain ⟨g1, g2⟩ := g
    cases g1 with
    | error e =>
      have h3 : g2 = s.connect.src := h1.2 (by simp)
      refine ⟨⟨fun h => (by cases h), fun h => ?_⟩, fun h => (by cases h), fun _ => ⟨rfl, ?_⟩⟩
      · have := h1.1.2 h.2
        cases this
      · show Same s { s.connect with src := g2 }
        rw [h3]
        exact ⟨⟨rfl, rfl, rfl⟩, rfl⟩
    | ok a =>
      obtain ⟨h3, h4, _⟩ := h2 rfl
      exact ⟨⟨fun _ => ⟨rfl, h1.1.1 rfl⟩, fun _ => rfl⟩, fun _ h => ⟨h3 h, h4 h⟩, fun h => absurd rfl h⟩

/-- **C95** Asked for a revision that is not in the directory, `backy-rbd` gives 1 and changes nothing, whether it is to back up, to verify
or to restore. -/
theorem C95_unknown (env : Env) (full : Bool) (o : Rbd) (order : List Hash → List Hash) (target : Option Bytes) (s : Sys) (u : String)
    (hn : Named s.src.repo.files) (hu : onDisk s.src.repo.files u = none) :
    (mainBackup env full o u s).1 = 1 ∧ Same s (mainBackup env full o u s).2 ∧
    (mainVerify env order u s).1 = 1 ∧ Same s (mainVerify env order u s).2 ∧
    mainRestore env u target s = (1, target) := by
  have hf : Backup.findByUuid s.connect.src.repo u = .error .index := by
    unfold Backup.findByUuid
    rw [find_uuid_none]
    intro r hr he
    have := (Repo.scan_mem hn r).1 hr
    rw [he, hu] at this
    cases this
  refine ⟨?_, ?_, ?_, ?_, ?_⟩
  · simp only [mainBackup, hf]
  · simp only [mainBackup, hf]; exact ⟨⟨rfl, rfl, rfl⟩, rfl⟩
  · simp only [mainVerify, hf]
  · simp only [mainVerify, hf]; exact ⟨⟨rfl, rfl, rfl⟩, rfl⟩
  · simp only [mainRestore, hf]

/-- **C95** `backy-rbd restore` of a revision of the directory gives 0 if the restore has ended without an error and 1 otherwise. -/
theorem C95_restore (env : Env) (target : Option Bytes) (s : Sys) (r : Rev) (hn : Named s.src.repo.files)
    (hr : onDisk s.src.repo.files r.uuid = some r) :
    mainRestore env r.uuid target s = (if (restore env s.src.w.fresh r target).1 = .ok () then 0 else 1, (restore env s.src.w.fresh r target).2) := by
  have hf : Backup.findByUuid s.connect.src.repo r.uuid = .ok r :=
    findByUuid_ok (Repo.scan_nodup s.src.repo) ((Repo.scan_mem hn r).2 hr)
  have e : s.connect.src.w = s.src.w.fresh := rfl
  simp only [mainRestore, hf, e]
  generalize restore env s.src.w.fresh r target = g
  obtain ⟨g1, g2⟩ := g
  cases g1 <;> simp

/-- **C95** `backy-rbd verify` of a local revision gives 0 or 1.  If it gives 0, then the revision has been marked as verified or removed:
it is marked exactly if each of its chunks is readable or belongs also to a revision that was verified before. -/
theorem C95_verify (env : Env) (order : List Hash → List Hash) (ho : ∀ l, (order l).Perm l) (s : Sys) (r : Rev)
    (hn : Named s.src.repo.files) (hr : onDisk s.src.repo.files r.uuid = some r) (hl : r.server = "") :
    let out := mainVerify env order r.uuid s
    (out.1 = 0 ∨ out.1 = 1) ∧
    (out.1 = 0 →
      ((∀ h, Refers s.src.w r.uuid h → Readable env s.src.w h ∨ ∃ v, IsVerified s.src.repo.scan v ∧ Refers s.src.w v.uuid h) →
        onDisk out.2.src.repo.files r.uuid = some { r with trust := .verified }) ∧
      (¬ (∀ h, Refers s.src.w r.uuid h → Readable env s.src.w h ∨ ∃ v, IsVerified s.src.repo.scan v ∧ Refers s.src.w v.uuid h) →
        onDisk out.2.src.repo.files r.uuid = none)) := by
  dsimp only
  have hf : Backup.findByUuid s.connect.src.repo r.uuid = .ok r :=
    findByUuid_ok (Repo.scan_nodup s.src.repo) ((Repo.scan_mem hn r).2 hr)
  have h1 := C19_verified_or_removed_partial env order ho s.connect.src r hl
  simp only [mainVerify, hf]
  generalize Src.verify env order s.connect.src r = k at *
  obtain ⟨k1, k2⟩ := k
  cases k1 with
  | error e => exact ⟨.inr rfl, fun h => (by cases h)⟩
  | ok a => exact ⟨.inl rfl, fun _ => h1 rfl⟩

/-- A repository with a revision whose mapping file cannot be read is not collected. -/
example : (mainGc false exTagged).1 = 1 ∧ (mainGc true exTagged).1 = 1 := by decide +kernel

/-- C95_unknown, C95_restore, C95_verify for the history of two backups. -/
example := C95_unknown Test.env false (idealRbd [0, 0, 0, 0, 2, 2, 2, 2] [1]) id none exSecond "zz" exSecond_named (by decide +kernel)
example := C95_restore Test.env (some [7]) exSecond (finished (idealRbd [] []) (newRev "b" 20 {"daily"})) exSecond_named (by decide +kernel)
example := C95_verify Test.env id (fun _ => List.Perm.refl _) exSecond (finished (idealRbd [] []) (newRev "b" 20 {"daily"})) exSecond_named
  (by decide +kernel) (by decide +kernel)

end Verif.Commands
