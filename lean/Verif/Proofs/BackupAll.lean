import Verif.Proofs.BackupData
import Verif.Proofs.RepoAll
/-! # The invariant of a repository and its source, and what keeps it -/
namespace Verif.Backup
open Verif Verif.Chunked Verif.Spec Verif.Rbd Verif.Repo Verif.Files Verif.Diff

/-- A complete local revision is stored as it was when its snapshot was taken. -/
def Stored (env : Env) (w : World) (taken : Dict String Bytes) (r : Rev) : Prop :=
  r.server = "" → r.clean = true → ∃ c, taken.get? r.uuid = some c ∧ OnDisk env w r.uuid c

theorem Stored.core (env : Env) (w : World) (taken : Dict String Bytes) : Core (Stored env w taken) := by
  intro r r' h h1 h2 h3 _ hs hc
  rw [h2] at hs
  have hc' : r.clean = true := by rw [Rev.clean, h3] at hc; exact hc
  rw [h1]
  exact h hs hc'

/-- What holds on disk. -/
structure Disk (env : Env) (w : World) (taken : Dict String Bytes) (files : Dict String RevFile) : Prop where
  wok : WOK env w
  named : Named files
  good : ∀ u r, onDisk files u = some r → Stored env w taken r

/-- What holds in a process: the history in memory is the one on disk. -/
structure Mem (env : Env) (taken : Dict String Bytes) (s : Src) : Prop where
  disk : Disk env s.w taken s.repo.files
  sync : Sync s.repo

theorem Mem.all {env : Env} {taken : Dict String Bytes} {s : Src} (h : Mem env taken s) :
    All (Stored env s.w taken) s.repo :=
  ⟨fun r hr => h.disk.good r.uuid r ((h.sync.mem r).1 hr), h.disk.good, h.disk.named⟩

theorem Disk.ofAll {env : Env} {w : World} {taken : Dict String Bytes} {repo : Repo} (hw : WOK env w)
    (h : All (Stored env w taken) repo) : Disk env w taken repo.files :=
  ⟨hw, h.named, h.disk⟩

theorem Mem.ofAll {env : Env} {taken : Dict String Bytes} {s : Src} (hw : WOK env s.w)
    (h : All (Stored env s.w taken) s.repo) (hs : Sync s.repo) : Mem env taken s := ⟨Disk.ofAll hw h, hs⟩

theorem onDisk_uuid {files : Dict String RevFile} (hn : Named files) {u : String} {r : Rev}
    (h : onDisk files u = some r) : r.uuid = u := by
  rw [onDisk_eq_some] at h
  exact (hn.named u _ (Dict.mem_of_get? h) rfl).symm

theorem WOK.fresh {env : Env} {w : World} (h : WOK env w) : WOK env w.fresh := ⟨h.good, by simp [World.fresh]⟩

theorem Disk.connect {env : Env} {s : Sys} {taken : Dict String Bytes}
    (h : Disk env s.src.w taken s.src.repo.files) : Mem env taken s.connect.src :=
  ⟨⟨WOK.fresh h.wok, h.named, h.good⟩, Sync.scan h.named⟩

/-- Garbage collection by a process that knows all local revisions. -/
theorem Mem.gc {env : Env} {taken : Dict String Bytes} {s : Src} (h : Mem env taken s) :
    Mem env taken s.gc.2 ∧ s.gc.2.w.log = s.w.log ∧ s.gc.2.repo = s.repo ∧ s.gc.2.w.metas = s.w.metas := by
  unfold Src.gc
  cases hu : usedChunks s.w s.repo.localHistory [] with
  | error e => exact ⟨h, rfl, rfl, rfl⟩
  | ok used =>
    refine ⟨⟨⟨purge_ok h.disk.wok used, h.disk.named, ?_⟩, h.sync⟩, purge_log _ _, rfl, purge_metas _ _⟩
    intro u r hr hs hc
    obtain ⟨c, h1, h2⟩ := h.disk.good u r hr hs hc
    refine ⟨c, h1, h2.purge used ?_⟩
    intro m hm x hx
    refine ((usedChunks_ok hu).2 x).2 (.inr ⟨r, ?_, m, hm, hx⟩)
    have hru : r.uuid = u := onDisk_uuid h.disk.named hr
    have hr' : r ∈ s.repo.history := (h.sync.mem r).2 (by rw [hru]; exact hr)
    simp [Repo.localHistory, Repo.getHistory, hr', Rev.isLocal, hs]

/-- In an intact store only missing chunks are unreadable. -/
theorem firstBad_some {env : Env} {w : World} (hw : WOK env w) (l : List Hash) {h : Hash}
    (hb : firstBad env w l = some h) : w.chunks.get? h = none := by
  induction l with
  | nil => simp [firstBad] at hb
  | cons x l ih =>
    simp only [firstBad, Chunk.new, Chunk.readExisting] at hb
    cases hx : w.chunks.get? x with
    | none => rw [hx] at hb; simp at hb; rw [← hb]; exact hx
    | some y =>
      obtain ⟨d, rfl, h2, _⟩ := hw.good x y hx
      rw [hx] at hb
      simp [h2] at hb
      exact ih hb

theorem Mem.eraseMissing {env : Env} {taken : Dict String Bytes} {s : Src} (h : Mem env taken s) {x : Hash}
    (hx : s.w.chunks.get? x = none) :
    Mem env taken { s with w := { s.w with chunks := s.w.chunks.erase x } } := by
  have hget : ∀ y, (s.w.chunks.erase x).get? y = s.w.chunks.get? y := by
    intro y
    rw [Dict.get?_erase]
    split
    · rename_i he; rw [he, hx]
    · rfl
  refine ⟨⟨⟨?_, ?_⟩, h.disk.named, ?_⟩, h.sync⟩
  · intro y z hz; exact h.disk.wok.good y z (by rw [← hget]; exact hz)
  · intro y hy; obtain ⟨d, hd⟩ := h.disk.wok.seen y hy; exact ⟨d, by rw [← hd]; exact hget y⟩
  · intro u r hr hs hc
    obtain ⟨c, h1, m, m1, m2, m3, m4⟩ := h.disk.good u r hr hs hc
    refine ⟨c, h1, m, m1, m2, ?_, ?_⟩
    · intro y hy; obtain ⟨d, hd⟩ := m3 y hy; exact ⟨d, by rw [← hd]; exact hget y⟩
    · intro p hp
      obtain ⟨a, d, a1, a2, a3, a4⟩ := m4 p hp
      exact ⟨a, d, a1, by rw [← a2]; exact hget a, a3, a4⟩

theorem Mem.remove {env : Env} {taken : Dict String Bytes} {s : Src} (h : Mem env taken s) {r : Rev}
    (hr : r ∈ s.repo.history) (force : Bool) : Mem env taken { s with repo := s.repo.remove r force } :=
  Mem.ofAll h.disk.wok (h.all.remove (Stored.core _ _ _) (h.all.hist r hr) force) (h.sync.remove ⟨r, hr, rfl⟩ force)

theorem Mem.store {env : Env} {taken : Dict String Bytes} {s : Src} (h : Mem env taken s) {r0 r : Rev}
    (hr : r0 ∈ s.repo.history) (hu : r.uuid = r0.uuid) (hst : Stored env s.w taken r) :
    Mem env taken { s with repo := s.repo.store r } :=
  Mem.ofAll h.disk.wok (h.all.store hst) (h.sync.store hr hu)

/-- Marking a revision as verified or removing it keeps everything that is stored. -/
theorem Mem.verifyMark {env : Env} {taken : Dict String Bytes} {s : Src} (h : Mem env taken s) {r : Rev}
    (hr : r ∈ s.repo.history) (order : List Hash → List Hash) :
    Mem env taken (Src.verifyMark env order s r).2 ∧ (Src.verifyMark env order s r).2.w.log = s.w.log ∧
      (Src.verifyMark env order s r).2.w.metas = s.w.metas := by
  unfold Src.verifyMark
  cases hc : verifyCandidates order s r with
  | error e => exact ⟨h, rfl, rfl⟩
  | ok cand =>
    dsimp only
    cases hb : firstBad env s.w cand with
    | some x =>
      exact ⟨(h.remove hr false).eraseMissing (x := x) (firstBad_some h.disk.wok cand hb), rfl, rfl⟩
    | none =>
      dsimp only
      split
      · exact ⟨h, rfl, rfl⟩
      · exact ⟨h.store hr rfl (Stored.core _ _ _ r _ (h.all.hist r hr) rfl rfl rfl rfl), rfl, rfl⟩

/-- Verification of any revision of the history keeps everything that is stored. -/
theorem Mem.verify {env : Env} {taken : Dict String Bytes} {s : Src} (h : Mem env taken s) {r : Rev}
    (hr : r ∈ s.repo.history) (order : List Hash → List Hash) :
    Mem env taken (Src.verify env order s r).2 ∧ (Src.verify env order s r).2.w.log = s.w.log ∧
      (Src.verify env order s r).2.w.metas = s.w.metas := by
  have hm := h.verifyMark hr order
  unfold Src.verify
  generalize hg : Src.verifyMark env order s r = g at *
  obtain ⟨g1, g2⟩ := g
  cases g1 with
  | error e => exact hm
  | ok u =>
    obtain ⟨m1, m2, m3⟩ := hm
    obtain ⟨q1, q2, _, q3⟩ := m1.gc
    exact ⟨q1, q2.trans m2, q3.trans m3⟩

theorem Mem.scan {env : Env} {taken : Dict String Bytes} {s : Src} (h : Disk env s.w taken s.repo.files) :
    Mem env taken { s with repo := s.repo.scan } := ⟨h, Sync.scan h.named⟩

theorem verifyDistrusted_mem {env : Env} {taken : Dict String Bytes} {s : Src}
    (h : Disk env s.w taken s.repo.files) (o : Rbd) :
    Mem env taken (verifyDistrusted env o s).2 ∧ (verifyDistrusted env o s).2.w.log = s.w.log ∧
      (verifyDistrusted env o s).2.w.metas = s.w.metas := by
  have hm := Mem.scan h
  unfold verifyDistrusted
  cases hf : (s.repo.scan.getHistory true true).reverse.find? (fun r => decide (r.trust = .distrusted)) with
  | none => exact ⟨hm, rfl, rfl⟩
  | some r =>
    have hr : r ∈ s.repo.scan.history := by
      have := List.mem_of_find?_eq_some hf
      exact List.mem_of_mem_filter (List.mem_reverse.1 this)
    exact hm.verify hr o.order

theorem conclude_disk {env : Env} {taken : Dict String Bytes} {s : Src} (o : Rbd) (r : Rev) (verified : Bool)
    (h : Disk env s.w taken (if verified then s.repo.store (finished o r) else s.repo.remove r).files) :
    Disk env (conclude env o r verified s).2.w taken (conclude env o r verified s).2.repo.files ∧
      (conclude env o r verified s).2.w.log = s.w.log := by
  unfold conclude
  have hd : Disk env (if verified then { s with repo := s.repo.store (finished o r) } else
      { s with repo := s.repo.remove r } : Src).w taken (if verified then { s with repo := s.repo.store (finished o r) } else
      { s with repo := s.repo.remove r } : Src).repo.files := by
    cases verified <;> exact h
  obtain ⟨h1, h2, _⟩ := verifyDistrusted_mem hd o
  have h3 : (if verified then { s with repo := s.repo.store (finished o r) } else
      { s with repo := s.repo.remove r } : Src).w = s.w := by cases verified <;> rfl
  rw [h3] at h2
  generalize hg : verifyDistrusted env o (if verified then { s with repo := s.repo.store (finished o r) } else
      { s with repo := s.repo.remove r }) = g at *
  obtain ⟨g1, g2⟩ := g
  cases g1 <;> exact ⟨h1.disk, h2⟩

end Verif.Backup
