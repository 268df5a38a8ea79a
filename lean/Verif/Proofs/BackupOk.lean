import Verif.Proofs.History
import Mathlib.Tactic.Ring
/-! # Backups succeed if nothing fails -/
namespace Verif.Backup
open Verif Verif.Chunked Verif.Spec Verif.Rbd Verif.Repo Verif.Files Verif.Diff

/-- `rbd` works, the diffs are complete and the sample is one `random.sample` can return. -/
structure Works (o : Rbd) (snaps : Dict String Bytes) (uuid : String) (image : Bytes) (bs : Nat) : Prop where
  ready : o.ready = true
  snapCreate : o.snapCreateFails = false
  info : o.infoFails = false
  map : o.mapFails = false
  unmap : o.unmapFails = false
  snapLs : o.snapLsFails = false
  full : o.exportOut = image
  diff : ∀ p c, snaps.get? (snapName p) = some c → ∃ d : Diff, d.Valid ∧
    d.Describes (ascii (snapName p)) (ascii (snapName uuid)) c image ∧ o.diffOut p = d.encode
  sample : ∃ n, ValidSample n bs image.length o.sample

theorem Works.faithful {o : Rbd} {snaps : Dict String Bytes} {uuid : String} {image : Bytes} {bs : Nat}
    (h : Works o snaps uuid image bs) : Faithful o snaps uuid image :=
  ⟨h.full, fun p c hp => by
    obtain ⟨d, d1, d2, d3⟩ := h.diff p c hp
    exact ⟨d, d.encode.length, d1, d2, by rw [List.take_length]; exact d3⟩⟩

theorem sample_le {n bs size : Nat} {sample : List Nat} (hs : ValidSample n bs size sample) (b : Nat) (hb : b ∈ sample) :
    b * bs ≤ size := by
  have hlt := hs.range b hb
  unfold sampleBlocks at hlt
  by_cases h0 : size / bs = 0
  · have : b = 0 := by omega
    subst this; simp
  · have hb' : b + 1 ≤ size / bs := by
      generalize size / bs = q at *
      omega
    have := Nat.mul_le_mul_right bs hb'
    have h4 : size / bs * bs ≤ size := Nat.div_mul_le_self _ _
    have h5 : (b + 1) * bs = b * bs + bs := by ring
    omega

theorem verifyPhase_ok {env : Env} {o : Rbd} {uuid : String} {image : Bytes} {w : World} {n : Nat} (hw : WOK env w)
    (hL : CollFree env.H w.log) (hd : OnDisk env w uuid image) (hm : o.mapFails = false) (hu : o.unmapFails = false)
    (hs : ValidSample n env.cs image.length o.sample) : (verifyPhase env o uuid image w).1 = .ok true := by
  obtain ⟨s, h1, h2⟩ := Rd.open hw hd
  obtain ⟨s', h3, _⟩ := roughLoop_true hL env.cs o.expired image o.sample 0 ⟨image, image.length⟩ h2 rfl
    (fun b hb => ⟨sample_le hs b hb, rfl⟩)
  unfold verifyPhase
  rw [h1]
  simp only [hm, Bool.false_eq_true, if_false]
  unfold filesAreRoughlyEqual
  rw [h3]
  simp [hu]

theorem writePhase_ok {env : Env} {L : List Bytes} (hL : CollFree env.H L) {o : Rbd} {s : Src} {uuid : String}
    {parent : Option Rev} {c image : Bytes} (hw : WOK env s.w) (hn : s.w.metas.get? uuid = none)
    (hp : ∀ p, parent = some p → OnDisk env s.w p.uuid c ∧ ∃ d : Diff, d.Valid ∧
      d.Describes (ascii (snapName p.uuid)) (ascii (snapName uuid)) c image ∧ o.diffOut p.uuid = d.encode)
    (hfull : parent = none → o.exportOut = image) (hlog : (writePhase env o uuid parent s).2.log ⊆ L) :
    (writePhase env o uuid parent s).1 = .ok () ∧ OnDisk env (writePhase env o uuid parent s).2 uuid image ∧
      WOK env (writePhase env o uuid parent s).2 := by
  obtain ⟨f, w, h1, h2, h3, h4, h5⟩ := openWrite_ok hw hn (fun p hp' => (hp p hp').1)
  unfold writePhase at hlog ⊢
  rw [h1] at hlog ⊢
  dsimp only at hlog ⊢
  have hlt : (transfer env o uuid parent f).2.w.log ⊆ L := fun x hx => hlog (closing_log env _ hx)
  have key : ∃ s' pos, transfer env o uuid parent f = (.ok (), s') ∧ R env s' ⟨image, pos, false, true, false⟩ ∧
      s'.f.name = uuid := by
    cases parent with
    | none =>
      simp only [transfer] at hlt ⊢
      rw [hfull rfl] at hlt ⊢
      obtain ⟨s', e1, pos, e2, e3, e4⟩ := full_ok hL image h5 hlt
      exact ⟨s', pos, e1, e2, e4.trans h2⟩
    | some p =>
      simp only [transfer] at hlt ⊢
      obtain ⟨_, d, hv, hd, hdo⟩ := hp p rfl
      rw [hdo] at hlt ⊢
      obtain ⟨s', pos, e1, e2, e3, e4⟩ := integrate_ok hL d hv _ _ c image hd h5 hlt
      exact ⟨s', pos, e1, e2, e4.trans h2⟩
  obtain ⟨s', pos, e1, e2, e3⟩ := key
  rw [e1] at hlog ⊢
  obtain ⟨q1, q2, q3, _⟩ := closing_ok (r := (.ok (), s')) hL e2 hlog
  exact ⟨q1, by rw [e3] at q3; exact q3, q2⟩

theorem backupBody_ok {env : Env} {L : List Bytes} (hL : CollFree env.H L) {af : Bool} {o : Rbd} {s : Sys} {r : Rev}
    (h : Start env s r) (hno : s.ceph.snaps.has (snapName r.uuid) = false)
    (hf : Works o s.ceph.snaps r.uuid s.ceph.image env.cs)
    (hlog : (backupBody env af o r s.ceph.image (s.snapshot r)).2.log ⊆ L) :
    (backupBody env af o r s.ceph.image (s.snapshot r)).1 = .ok true := by
  unfold backupBody at hlog ⊢
  have hsrc : (s.snapshot r).src = s.src := rfl
  rw [hsrc] at hlog ⊢
  have hpar : ∃ parent, cephGetParent af (s.snapshot r).ceph.snaps o.infoFails s.src.repo r = .ok parent := by
    unfold cephGetParent
    split
    · exact ⟨_, rfl⟩
    · obtain ⟨a, b, hab⟩ := List.append_of_mem h.rev
      obtain ⟨res, h1, _, _⟩ := parentLoop_spec (s.snapshot r).ceph.snaps s.src.repo (s.src.repo.history.length + 1) a r b
        hab h.mem.sync.nodup h.trust (by rw [hab]; simp; omega)
      rw [hf.info]
      exact ⟨res, h1⟩
  obtain ⟨parent, hp⟩ := hpar
  rw [hp] at hlog ⊢
  dsimp only at hlog ⊢
  obtain ⟨c, hc⟩ := h.parent hno hp
  have hwl : (writePhase env o r.uuid parent s.src).2.log ⊆ L := by
    split at hlog
    · rename_i heq; rw [heq]; exact hlog
    · rename_i w heq; rw [heq]; rw [verifyPhase_log] at hlog; exact hlog
  obtain ⟨w1, w2, w3⟩ := writePhase_ok hL (image := s.ceph.image) (c := c) h.mem.disk.wok h.fresh
    (fun p hp => ⟨(hc p hp).1, hf.diff p.uuid c (hc p hp).2⟩) (fun _ => hf.full) hwl
  generalize hg : writePhase env o r.uuid parent s.src = g at *
  obtain ⟨g1, w⟩ := g
  cases g1 with
  | error e => cases w1
  | ok u =>
    obtain ⟨n, hn⟩ := hf.sample
    exact verifyPhase_ok w3 (fun a ha b hb => hL a (hwl ha) b (hwl hb)) w2 hf.map hf.unmap hn

/-- If all local revisions are complete, garbage collection does not fail. -/
theorem Mem.gc_ok {env : Env} {taken : Dict String Bytes} {s : Src} (h : Mem env taken s)
    (hc : ∀ r ∈ s.repo.history, r.server = "" → r.clean = true) : s.gc.1 = .ok () := by
  have : ∀ r ∈ s.repo.localHistory, ∃ m, s.w.metas.get? r.uuid = some (some m) := by
    intro r hr
    have hr1 : r ∈ s.repo.history := List.mem_of_mem_filter hr
    have hr2 : r.server = "" := by
      simp only [Repo.localHistory, Repo.getHistory, List.mem_filter] at hr
      simpa [Rev.isLocal] using hr.2
    obtain ⟨c, _, m, m1, _⟩ := h.all.hist r hr1 hr2 (hc r hr1 hr2)
    exact ⟨m, m1⟩
  obtain ⟨used, hu⟩ := usedChunks_total this []
  unfold Src.gc
  rw [hu]

theorem mem_getHistory {s : Repo} {r : Rev} : r ∈ s.getHistory true true ↔ r ∈ s.history ∧ r.clean = true ∧ r.server = "" := by
  simp [Repo.getHistory, Rev.isLocal]

/-- If all local revisions are complete, verifying one does not fail. -/
theorem Mem.verify_ok {env : Env} {taken : Dict String Bytes} {s : Src} (h : Mem env taken s)
    (hc : ∀ r ∈ s.repo.history, r.server = "" → r.clean = true) {r : Rev} (hr : r ∈ s.repo.history) (hl : r.server = "")
    (order : List Hash → List Hash) : (Src.verify env order s r).1 = .ok () := by
  have hm := (h.verifyMark hr order).1
  unfold Src.verify
  have hmark : (Src.verifyMark env order s r).1 = .ok () ∧
      ∀ x ∈ (Src.verifyMark env order s r).2.repo.history, x.server = "" → x.clean = true := by
    unfold Src.verifyMark
    have hcand : ∃ l, verifyCandidates order s r = .ok l := by
      unfold verifyCandidates
      obtain ⟨used, hu⟩ := usedChunks_total (w := s.w)
        (l := (s.repo.getHistory true true).filter (fun x => decide (x.trust = .verified))) (by
          intro x hx
          obtain ⟨h1, h2, h3⟩ := mem_getHistory.1 (List.mem_of_mem_filter hx)
          obtain ⟨c, _, m, m1, _⟩ := h.all.hist x h1 h3 h2
          exact ⟨m, m1⟩) []
      rw [hu]
      obtain ⟨c, _, m, m1, _⟩ := h.all.hist r hr hl (hc r hr hl)
      dsimp only
      rw [mappedHashes_some m1]
      exact ⟨_, rfl⟩
    obtain ⟨cand, hcand⟩ := hcand
    rw [hcand]
    dsimp only
    cases hb : firstBad env s.w cand with
    | some x =>
      refine ⟨rfl, fun y hy => ?_⟩
      dsimp only at hy
      have : s.repo.remove r = s.repo.drop r := by simp [Repo.remove, hl]
      rw [this] at hy
      exact hc y (List.mem_of_mem_filter hy)
    | none =>
      dsimp only
      rw [if_neg (by simp [hl])]
      refine ⟨rfl, fun y hy hs => ?_⟩
      rcases mem_assign (s := s.repo) hy with rfl | ⟨hy, _⟩
      · exact hc r hr hl
      · exact hc y hy hs
  generalize hg : Src.verifyMark env order s r = g at *
  obtain ⟨g1, g2⟩ := g
  obtain ⟨m1, m2⟩ := hmark
  cases g1 with
  | error e => cases m1
  | ok u => exact hm.gc_ok m2

theorem verifyDistrusted_ok {env : Env} {taken : Dict String Bytes} {s : Src}
    (h : Disk env s.w taken s.repo.files) (o : Rbd)
    (hc : ∀ u r, onDisk s.repo.files u = some r → r.server = "" → r.clean = true) :
    (verifyDistrusted env o s).1 = .ok () := by
  have hm := Mem.scan h
  have hc' : ∀ r ∈ s.repo.scan.history, r.server = "" → r.clean = true := by
    intro r hr; exact hc r.uuid r ((Repo.scan_mem h.named r).1 hr)
  unfold verifyDistrusted
  cases hf : (s.repo.scan.getHistory true true).reverse.find? (fun r => decide (r.trust = .distrusted)) with
  | none => rfl
  | some r =>
    obtain ⟨h1, h2, h3⟩ := mem_getHistory.1 (List.mem_reverse.1 (List.mem_of_find?_eq_some hf))
    exact hm.verify_ok hc' h1 h3 o.order

/-- After a snapshot was taken the process fails only by what failed before. -/
theorem conclude_ok {env : Env} {taken : Dict String Bytes} {s : Src} (o : Rbd) (r : Rev) (verified : Bool)
    (h : Disk env s.w taken (if verified then s.repo.store (finished o r) else s.repo.remove r).files)
    (hc : ∀ u x, onDisk (if verified then s.repo.store (finished o r) else s.repo.remove r).files u = some x →
      x.server = "" → x.clean = true) :
    (conclude env o r verified s).1 = .ok verified := by
  unfold conclude
  have hd : (verifyDistrusted env o (if verified then { s with repo := s.repo.store (finished o r) } else
      { s with repo := s.repo.remove r } : Src)).1 = .ok () := by
    refine verifyDistrusted_ok (taken := taken) ?_ o ?_
    · cases verified <;> exact h
    · cases verified <;> exact hc
  generalize verifyDistrusted env o (if verified then { s with repo := s.repo.store (finished o r) } else
      { s with repo := s.repo.remove r } : Src) = g at *
  obtain ⟨g1, g2⟩ := g
  cases g1 with
  | error e => cases hd
  | ok u => rfl

end Verif.Backup
