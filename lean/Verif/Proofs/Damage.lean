import Verif.Proofs.Ideal
import Verif.Spec.Damage
import Verif.Props.Commands
/-! # The invariant along histories with damage -/
namespace Verif.Backup
open Verif Verif.Chunked Verif.Spec Verif.Rbd Verif.Repo Verif.Files Verif.Diff

/-- A complete local revision whose mapping file is readable would restore to the image if no chunk were damaged. -/
def Kept (env : Env) (L : List Bytes) (w : World) (taken : Dict String Bytes) (r : Rev) : Prop :=
  r.server = "" → r.clean = true → ∃ c, taken.get? r.uuid = some c ∧
    ∀ m, w.metas.get? r.uuid = some (some m) → OnDisk env (ideal env L w) r.uuid c

theorem Kept.core (env : Env) (L : List Bytes) (w : World) (taken : Dict String Bytes) : Core (Kept env L w taken) := by
  intro r r' h h1 h2 h3 _ hs hc
  rw [h2] at hs
  have hc' : r.clean = true := by rw [Rev.clean, h3] at hc; exact hc
  rw [h1]
  exact h hs hc'

theorem onDisk_ideal {env : Env} {L : List Bytes} {w w' : World} {n : String} {c : Bytes} (hm : w'.metas.get? n = w.metas.get? n)
    (h : OnDisk env (ideal env L w) n c) : OnDisk env (ideal env L w') n c := by
  obtain ⟨m, m1, m2⟩ := h
  exact ⟨m, hm.trans m1, m2⟩

theorem Kept.congr {env : Env} {L : List Bytes} {w w' : World} {taken : Dict String Bytes} {r : Rev}
    (hm : w'.metas.get? r.uuid = w.metas.get? r.uuid) (h : Kept env L w taken r) : Kept env L w' taken r := by
  intro hs hc
  obtain ⟨c, c1, c2⟩ := h hs hc
  exact ⟨c, c1, fun m h1 => onDisk_ideal hm (c2 m (hm ▸ h1))⟩

/-- Chunks disappear, everything else stays. -/
structure Shrunk (w w' : World) : Prop where
  metas : w'.metas = w.metas
  log : w'.log = w.log
  seen : w'.seen ⊆ w.seen
  chunks : ∀ h x, w'.chunks.get? h = some x → w.chunks.get? h = some x

theorem Shrunk.refl (w : World) : Shrunk w w := ⟨rfl, rfl, fun _ h => h, fun _ _ h => h⟩
theorem Shrunk.trans {a b c : World} (h : Shrunk a b) (h' : Shrunk b c) : Shrunk a c :=
  ⟨h'.metas.trans h.metas, h'.log.trans h.log, fun _ hx => h.seen (h'.seen hx), fun x y hy => h.chunks x y (h'.chunks x y hy)⟩

theorem Shrunk.okW {env : Env} {L : List Bytes} {w w' : World} (h : Shrunk w w') (hw : OkW env L w) : OkW env L w' :=
  ⟨fun x d hd => hw.chunks x d (h.chunks x _ hd), fun x hx => hw.seen x (h.seen hx), by rw [h.log]; exact hw.small⟩

theorem erase_shrunk (w : World) (h : Hash) : Shrunk w { w with chunks := w.chunks.erase h } := by
  refine ⟨rfl, rfl, fun _ h => h, ?_⟩
  intro x y hy
  dsimp only at hy
  rw [Dict.get?_erase] at hy
  split at hy
  · cases hy
  · exact hy

theorem gc_shrunk (s : Src) : Shrunk s.w s.gc.2.w := by
  unfold Src.gc
  cases usedChunks s.w s.repo.localHistory [] with
  | error e => exact Shrunk.refl _
  | ok used =>
    obtain ⟨h1, h2, h3, h4, h5, h6⟩ := foldl_purge used s.w.ls s.w
    refine ⟨h3, h6, fun x hx => ((h2 x).1 hx).1, ?_⟩
    intro x y hy
    have hy' : (s.w.purge used).chunks.get? x = some y := hy
    rw [purge_chunks] at hy'
    split at hy'
    · exact hy'
    · cases hy'

theorem gcSome_shrunk (left : Hash → Bool) (s : Src) : Shrunk s.w (gcSome left s).w := by
  unfold gcSome
  split
  · exact Shrunk.refl _
  · rename_i used _
    refine ⟨rfl, rfl, fun _ h => h, ?_⟩
    intro x y hy
    have hy' : Dict.get? (s.w.chunks.filter (fun y => decide (y.1 ∈ used) || left y.1)) x = some y := hy
    rw [Dict.get?_filter s.w.chunks (fun k => decide (k ∈ used) || left k)] at hy'
    split at hy'
    · exact hy'
    · cases hy'

theorem verifyMark_shrunk (env : Env) (order : List Hash → List Hash) (s : Src) (r : Rev) :
    Shrunk s.w (Src.verifyMark env order s r).2.w := by
  unfold Src.verifyMark
  split
  · exact Shrunk.refl _
  · split
    · exact erase_shrunk _ _
    · split <;> exact Shrunk.refl _

theorem verify_shrunk (env : Env) (order : List Hash → List Hash) (s : Src) (r : Rev) :
    Shrunk s.w (Src.verify env order s r).2.w := by
  have h := verifyMark_shrunk env order s r
  unfold Src.verify
  generalize Src.verifyMark env order s r = g at *
  obtain ⟨g1, g2⟩ := g
  cases g1
  · exact h
  · exact h.trans (gc_shrunk g2)

theorem verifyDistrusted_shrunk (env : Env) (o : Rbd) (s : Src) : Shrunk s.w (verifyDistrusted env o s).2.w := by
  unfold verifyDistrusted
  split
  · exact Shrunk.refl _
  · rename_i r _
    exact verify_shrunk env o.order { s with repo := s.repo.scan } r

theorem conclude_shrunk (env : Env) (o : Rbd) (r : Rev) (v : Bool) (s : Src) : Shrunk s.w (conclude env o r v s).2.w := by
  have h := verifyDistrusted_shrunk env o (if v then { s with repo := s.repo.store (finished o r) } else { s with repo := s.repo.remove r })
  have h3 : (if v then { s with repo := s.repo.store (finished o r) } else
      { s with repo := s.repo.remove r } : Src).w = s.w := by cases v <;> rfl
  rw [h3] at h
  unfold conclude
  generalize verifyDistrusted env o (if v then { s with repo := s.repo.store (finished o r) } else { s with repo := s.repo.remove r }) = g at *
  obtain ⟨g1, g2⟩ := g
  cases g1 <;> exact h

theorem afterSnapshot_shrunk (env : Env) (o : Rbd) (r : Rev) (res : Except PyErr Bool) (s : Src) :
    Shrunk s.w (afterSnapshot env o r res s).2.w := by
  unfold afterSnapshot
  split
  · exact conclude_shrunk _ _ _ _ _
  · split
    · exact Shrunk.refl _
    · rename_i repo _
      exact conclude_shrunk env o r false { s with repo := repo }
  · exact Shrunk.refl _

theorem all_conclude_false {P : Rev → Prop} (hP : Core P) {env : Env} {o : Rbd} {s : Src} (h : All P s.repo) {r : Rev} (hr : P r) :
    All P (conclude env o r false s).2.repo := by
  have hd : All P (verifyDistrusted env o { s with repo := s.repo.remove r }).2.repo :=
    Commands.all_verifyDistrusted hP (h.remove hP hr false)
  unfold conclude
  simp only [Bool.false_eq_true, if_false]
  generalize verifyDistrusted env o { s with repo := s.repo.remove r } = g at *
  obtain ⟨g1, g2⟩ := g
  cases g1 <;> exact hd

theorem all_afterSnapshot' {P : Rev → Prop} (hP : Core P) {env : Env} {o : Rbd} {s : Src} (h : All P s.repo) {r : Rev} (hr : P r)
    (res : Except PyErr Bool) (hf : ∀ v, res = .ok v → P (finished o r)) : All P (afterSnapshot env o r res s).2.repo := by
  unfold afterSnapshot
  split
  · exact Commands.all_conclude hP h hr (hf _ rfl) _
  · have hd := All.distrust hP s.repo.localHistory h (fun x hx => h.hist x (mem_localHistory.1 hx).1)
    generalize s.repo.distrust s.repo.localHistory = g at *
    obtain ⟨g1, g2⟩ := g
    cases g1 with
    | error e => exact hd
    | ok u => exact all_conclude_false (s := { s with repo := g2 }) hP hd hr
  · exact h

/-- The invariant between events. -/
structure Sound (env : Env) (L : List Bytes) (s : Sys) : Prop where
  okw : OkW env L s.src.w
  named : Named s.src.repo.files
  good : ∀ u r, onDisk s.src.repo.files u = some r → Kept env L s.src.w s.ceph.taken r
  snaps : SnapsOK s.ceph

theorem Sound.initial {env : Env} {L : List Bytes} {s : Sys} (h : Initial s) (hlog : s.src.w.log = []) : Sound env L s := by
  refine ⟨⟨?_, ?_, ?_⟩, ⟨?_, ?_⟩, ?_, ?_⟩
  · intro x y hy; rw [h.chunks] at hy; cases hy
  · intro x hx; rw [h.seen] at hx; cases hx
  · intro d hd; rw [hlog] at hd; cases hd
  · rw [h.files]; simp [Dict.keys]
  · intro n f hf; rw [h.files] at hf; cases hf
  · intro u r hr; rw [h.files] at hr; cases hr
  · exact h.snaps

theorem OkW.fresh {env : Env} {L : List Bytes} {w : World} (h : OkW env L w) : OkW env L w.fresh :=
  ⟨h.chunks, by simp [World.fresh], h.small⟩

theorem Sound.all {env : Env} {L : List Bytes} {s : Sys} (h : Sound env L s) :
    All (Kept env L s.src.w s.ceph.taken) s.connect.src.repo :=
  ⟨fun r hr => h.good _ r ((Repo.scan_mem h.named r).1 hr), h.good, h.named⟩

theorem Sound.ofAll {env : Env} {L : List Bytes} {s : Sys} (hw : OkW env L s.src.w)
    (h : All (Kept env L s.src.w s.ceph.taken) s.src.repo) (hs : SnapsOK s.ceph) : Sound env L s :=
  ⟨hw, h.named, h.disk, hs⟩

theorem Sound.shrunk {env : Env} {L : List Bytes} {s : Sys} (h : Sound env L s) {src : Src} (hw : Shrunk s.src.w src.w)
    (ha : All (Kept env L s.src.w s.ceph.taken) src.repo) : Sound env L { s with src } :=
  Sound.ofAll (hw.okW h.okw) (ha.mono (fun r hr => hr.congr (by rw [hw.metas]))) h.snaps

/-- The state in which a backup of the new revision `r` starts in a damaged repository. -/
structure Begin (env : Env) (L : List Bytes) (s : Sys) (r : Rev) : Prop where
  okw : OkW env L s.src.w
  sync : Sync s.src.repo
  all : All (Kept env L s.src.w s.ceph.taken) s.src.repo
  snaps : SnapsOK s.ceph
  rev : r ∈ s.src.repo.history
  srv : r.server = ""
  trust : r.trust ≠ .distrusted
  incomplete : r.clean = false
  fresh : s.src.w.metas.get? r.uuid = none
  others : ∀ x ∈ s.src.repo.history, x.uuid ≠ r.uuid → x.server = "" → x.clean = true

theorem Sound.prepared {env : Env} {L : List Bytes} {s : Sys} (h : Sound env L s) {uuid : String} (hu : Fresh s uuid) (ts : Int)
    (tags : Finset String) : Begin env L (s.prepared uuid ts tags) (newRev uuid ts tags) := by
  have hall := h.all
  have hcore := Kept.core env L s.src.w s.ceph.taken
  have hsync : Sync s.connect.src.repo := Sync.scan h.named
  have hc := hall.clean hcore
  have hnew : Kept env L s.src.w s.ceph.taken (newRev uuid ts tags) := by
    intro _ hcl; exact absurd hcl (by simp [newRev, Rev.clean, Dict.has, Dict.get?])
  have hw := hc.writeInfo hnew
  have hsync' : Sync (s.prepared uuid ts tags).src.repo := Sync.scan hw.named
  have hall' : All (Kept env L (s.prepared uuid ts tags).src.w (s.prepared uuid ts tags).ceph.taken) (s.prepared uuid ts tags).src.repo :=
    hw.scan.mono (fun r hr => hr.congr rfl)
  obtain ⟨c1, c2⟩ := clean_complete hsync
  have hfiles : (s.prepared uuid ts tags).src.repo.files =
      s.connect.src.repo.clean.files.set (newRev uuid ts tags).uuid ⟨false, newRev uuid ts tags⟩ := rfl
  refine ⟨h.okw.fresh.fresh, hsync', hall', h.snaps, ?_, rfl, by simp [newRev], by simp [newRev, Rev.clean, Dict.has, Dict.get?], hu.image, ?_⟩
  · rw [hsync'.mem, hfiles, onDisk_set]
    exact if_pos rfl
  · intro x hx hne hs
    rw [hsync'.mem, hfiles, onDisk_set, if_neg hne, ← c1.mem, c2] at hx
    exact hx.2 (by simp [Rev.isLocal, hs])

theorem snapshot_snapsOK {s : Sys} {r : Rev} (h : SnapsOK s.ceph) (hno : s.ceph.snaps.has (snapName r.uuid) = false) :
    SnapsOK (s.snapshot r).ceph := by
  intro u d hd
  simp only [Sys.snapshot] at hd ⊢
  rw [get?_append_single] at hd
  rw [Dict.get?_set]
  by_cases hu : u = r.uuid
  · subst hu
    rw [if_pos rfl]
    have : s.ceph.snaps.get? (snapName r.uuid) = none := by
      unfold Dict.has at hno
      cases hx : s.ceph.snaps.get? (snapName r.uuid) with
      | none => rfl
      | some x => rw [hx] at hno; simp at hno
    rw [this] at hd
    simpa using hd
  · rw [if_neg hu]
    rw [if_neg (fun he => hu (snapName_inj he))] at hd
    simp at hd
    exact h u d hd

/-- The parent chosen by the code: if its mapping file is readable, it would restore to the content of its snapshot. -/
theorem Begin.parent {env : Env} {L : List Bytes} {s : Sys} {r : Rev} (h : Begin env L s r)
    (hno : s.ceph.snaps.has (snapName r.uuid) = false) {af inf : Bool} {parent : Option Rev}
    (hp : cephGetParent af (s.snapshot r).ceph.snaps inf s.src.repo r = .ok parent) :
    ∃ c, ∀ p, parent = some p → (∀ m, s.src.w.metas.get? p.uuid = some (some m) → OnDisk env (ideal env L s.src.w) p.uuid c) ∧
      s.ceph.snaps.get? (snapName p.uuid) = some c := by
  cases parent with
  | none => exact ⟨[], fun p hp => by cases hp⟩
  | some p =>
    obtain ⟨q1, q2, q3⟩ := cephGetParent_some h.sync.nodup h.rev h.trust hp
    have hsv : p.server = "" := q3.server.trans h.srv
    obtain ⟨c, c1, c2⟩ := h.all.hist p q1 hsv (h.others p q1 q2 hsv)
    refine ⟨c, fun p' hp' => ?_⟩
    cases hp'
    refine ⟨c2, ?_⟩
    have hs := q3.snap
    unfold Dict.has at hs
    obtain ⟨d, hd⟩ := Option.isSome_iff_exists.1 hs
    have hd2 := snapshot_snapsOK h.snaps hno p.uuid d hd
    simp only [Sys.snapshot] at hd hd2
    rw [Dict.get?_set, if_neg q2, c1] at hd2
    cases hd2
    rw [get?_append_single, if_neg (fun he => q2 (snapName_inj he))] at hd
    simpa using hd

/-- Writing succeeds only with a readable mapping file of the parent. -/
theorem writePhase_parent {env : Env} {o : Rbd} {uuid : String} {p : Rev} {s : Src} (hn : s.w.metas.get? uuid = none)
    {a : Unit} (h : (writePhase env o uuid (some p) s).1 = .ok a) : ∃ m, s.w.metas.get? p.uuid = some (some m) := by
  unfold writePhase openWrite copyParent at h
  simp only [Dict.has, hn, Option.isSome_none, Bool.false_eq_true, if_false] at h
  cases hm : s.w.metas.get? p.uuid with
  | none => rw [hm] at h; cases h
  | some m =>
    cases m with
    | some m => exact ⟨m, rfl⟩
    | none =>
      rw [hm] at h
      simp only [File.open, Dict.get?_set_self] at h
      cases h

theorem ticked_okW {env : Env} {L : List Bytes} {w w' : World} (h : Ticked w w') (hw : OkW env L w) : OkW env L w' := by
  rw [h]; exact ⟨hw.chunks, hw.seen, hw.small⟩

theorem backupBody_com {env : Env} {L : List Bytes} (hL : CollFree env.H L) (af : Bool) (o : Rbd) {s : Sys} {r : Rev}
    (h : Begin env L s r) (hno : s.ceph.snaps.has (snapName r.uuid) = false)
    (hf : Faithful o s.ceph.snaps r.uuid s.ceph.image)
    (hlog : (backupBody env af o r s.ceph.image (s.snapshot r)).2.log ⊆ L) :
    OkW env L (backupBody env af o r s.ceph.image (s.snapshot r)).2 ∧
    FrameW r.uuid s.src.w (backupBody env af o r s.ceph.image (s.snapshot r)).2 ∧
    ∀ v, (backupBody env af o r s.ceph.image (s.snapshot r)).1 = .ok v →
      OnDisk env (ideal env L (backupBody env af o r s.ceph.image (s.snapshot r)).2) r.uuid s.ceph.image := by
  unfold backupBody at hlog ⊢
  have hsrc : (s.snapshot r).src = s.src := rfl
  rw [hsrc] at hlog ⊢
  cases hp : cephGetParent af (s.snapshot r).ceph.snaps o.infoFails s.src.repo r with
  | error e => exact ⟨h.okw, ⟨fun _ _ => rfl⟩, fun v hv => (by cases hv)⟩
  | ok parent =>
    rw [hp] at hlog
    dsimp only at hlog ⊢
    obtain ⟨c, hc⟩ := h.parent hno hp
    have hwl : (writePhase env o r.uuid parent s.src).2.log ⊆ L := by
      split at hlog
      · rename_i heq; rw [heq]; exact hlog
      · rename_i w heq; rw [heq]; rw [verifyPhase_log] at hlog; exact hlog
    obtain ⟨w1, w2, w3⟩ := writePhase_com hL o r.uuid parent h.okw hwl
    have w4 : ∀ a, (writePhase env o r.uuid parent s.src).1 = .ok a →
        OnDisk env (ideal env L (writePhase env o r.uuid parent s.src).2) r.uuid s.ceph.image := by
      intro a ha
      have hw3 := w3 a ha
      have hpar : ∀ p, parent = some p → OnDisk env (ideal env L s.src.w) p.uuid c := by
        intro p hp
        subst hp
        obtain ⟨m, hm⟩ := writePhase_parent h.fresh ha
        exact (hc p rfl).1 m hm
      have hsp := writePhase_spec (s := { s.src with w := ideal env L s.src.w }) hL o (h.okw.wok hL) h.fresh hpar (by
        rw [hw3]
        intro x hx
        rcases List.mem_append.1 hx with hx | hx
        · exact hwl hx
        · exact hx)
      have hfin := hsp.2.2.2 s.ceph.snaps s.ceph.image hf (fun p hp => (hc p hp).2) (by rw [hw3])
      rw [hw3] at hfin
      exact hfin
    generalize hg : writePhase env o r.uuid parent s.src = g at *
    obtain ⟨g1, w⟩ := g
    cases g1 with
    | error e => exact ⟨w1, w2, fun v hv => (by cases hv)⟩
    | ok u =>
      have ht := verifyPhase_ticked env o r.uuid s.ceph.image w
      dsimp only at w1 w2 w4 ⊢
      have hmet : (verifyPhase env o r.uuid s.ceph.image w).2.metas = w.metas := by rw [ht]
      refine ⟨ticked_okW ht w1, ⟨fun n hn => ?_⟩, fun v _ => onDisk_ideal (by rw [hmet]) (w4 u rfl)⟩
      rw [hmet]; exact w2.metas n hn

/-- What was stored is still stored when the new image has been written. -/
theorem Begin.ext {env : Env} {L : List Bytes} {s : Sys} {r : Rev} (h : Begin env L s r) {w : World}
    (he : FrameW r.uuid s.src.w w) (img : Bytes) :
    All (Kept env L w (s.ceph.taken.set r.uuid img)) s.src.repo := by
  have key : ∀ x ∈ s.src.repo.history, Kept env L w (s.ceph.taken.set r.uuid img) x := by
    intro x hx
    by_cases hu : x.uuid = r.uuid
    · have : x = r := eq_of_uuid h.sync.nodup hx h.rev hu
      subst this
      intro _ hc
      rw [h.incomplete] at hc; cases hc
    · intro hs hc
      obtain ⟨c, h1, h2⟩ := h.all.hist x hx hs hc
      refine ⟨c, by rw [Dict.get?_set, if_neg hu]; exact h1, ?_⟩
      intro m hm
      have := he.metas x.uuid hu
      exact onDisk_ideal this (h2 m (this ▸ hm))
  refine ⟨key, ?_, h.sync.named⟩
  intro u x hx
  exact key x ((h.sync.mem x).2 (by rw [onDisk_uuid h.sync.named hx]; exact hx))

theorem snapsOK_delete {c : Ceph} (h : SnapsOK c) (o : Rbd) (af : Bool) (repo : Repo) :
    SnapsOK { c with snaps := (deleteOldSnapshots o af repo c.snaps).2 } :=
  fun u d hd => h u d (deleteOldSnapshots_sub _ _ _ _ _ _ hd)

theorem backup_sound {env : Env} {L : List Bytes} (hL : CollFree env.H L) (af : Bool) (o : Rbd) {s : Sys} {r : Rev}
    (h : Begin env L s r) (hf : Faithful o s.ceph.snaps r.uuid s.ceph.image)
    (hlog : (backup env af o r s).2.src.w.log ⊆ L) : Sound env L (backup env af o r s).2 := by
  have h0 : Sound env L s := Sound.ofAll h.okw h.all h.snaps
  unfold backup at hlog ⊢
  split
  · exact h0
  · rename_i h1
    rw [if_neg h1] at hlog
    split
    · exact h0
    · rename_i h2
      rw [if_neg h2] at hlog
      have hno : s.ceph.snaps.has (snapName r.uuid) = false := by
        simp only [not_or] at h2; simpa using h2.2
      dsimp only at hlog ⊢
      rw [afterSnapshot_log] at hlog
      obtain ⟨b1, b2, b3⟩ := backupBody_com hL af o h hno hf hlog
      have hsh := afterSnapshot_shrunk env o r (exitWith (backupBody env af o r s.ceph.image (s.snapshot r)).1
        (deleteOldSnapshots o af s.src.repo (s.snapshot r).ceph.snaps).1) { s.src with w := (backupBody env af o r s.ceph.image (s.snapshot r)).2 }
      have hall := h.ext b2 s.ceph.image
      have hcore := Kept.core env L (backupBody env af o r s.ceph.image (s.snapshot r)).2 (s.ceph.taken.set r.uuid s.ceph.image)
      refine Sound.ofAll (hsh.okW b1) ?_ (snapsOK_delete (snapshot_snapsOK h.snaps hno) o af s.src.repo)
      have ha := all_afterSnapshot' (env := env) (o := o) (s := { s.src with w := (backupBody env af o r s.ceph.image (s.snapshot r)).2 }) hcore hall
        (hall.hist r h.rev) (exitWith (backupBody env af o r s.ceph.image (s.snapshot r)).1
        (deleteOldSnapshots o af s.src.repo (s.snapshot r).ceph.snaps).1) (by
          intro v hv _ _
          exact ⟨s.ceph.image, by show (s.ceph.taken.set r.uuid s.ceph.image).get? r.uuid = _; simp, fun m _ => b3 v (exitWith_ok hv).1⟩)
      exact ha.mono (fun x hx => hx.congr (by rw [hsh.metas]))

theorem Sound.killed {env : Env} {L : List Bytes} (hL : CollFree env.H L) {s s' : Sys} (h : Sound env L s) {af : Bool}
    {o : Rbd} {uuid : String} {ts : Int} {tags : Finset String} (hu : Fresh s uuid)
    (hf : Faithful o s.ceph.snaps uuid s.ceph.image) (hk : Killed env af o uuid ts tags s s')
    (hlog : s'.src.w.log ⊆ L) : Sound env L s' := by
  have hst := h.prepared hu ts tags
  have hno := prepared_noSnap hu ts tags
  have hf' : Faithful o (s.prepared uuid ts tags).ceph.snaps (newRev uuid ts tags).uuid (s.prepared uuid ts tags).ceph.image := hf
  cases hk with
  | cleaning k =>
    have hall := h.all
    have hcore := Kept.core env L s.src.w s.ceph.taken
    have : All (Kept env L s.src.w s.ceph.taken) (cleanUpTo k s.connect.src.repo) := by
      unfold cleanUpTo
      refine All.foldl _ (fun s r hs hr => ?_) _ hall (fun r hr => hall.hist r (List.mem_of_mem_filter (List.mem_of_mem_take hr)))
      split
      · exact hs
      · exact hs.remove hcore hr false
    exact ⟨h.okw, this.named, this.disk, h.snaps⟩
  | created => exact Sound.ofAll hst.okw hst.all hst.snaps
  | writing parent v hp hv =>
    have hokv : OkW env L v := by
      refine ⟨?_, by rw [hv.seen]; simp, ?_⟩
      · intro x d hx hH
        rcases hv.new x _ hx with hx | ⟨d', h1, _, h3, h4⟩
        · exact hst.okw.chunks x d hx hH
        · cases h1
          exact ⟨hlog h3, h4⟩
      · intro d hd
        rcases hv.small d hd with h | h
        · exact hst.okw.small d h
        · exact h
    exact Sound.ofAll hokv (hst.ext ⟨hv.metas⟩ s.ceph.image) (snapshot_snapsOK hst.snaps hno)
  | leaving o' k =>
    obtain ⟨b1, b2, _⟩ := backupBody_com hL af o hst hno hf' hlog
    have hall := hst.ext b2 s.ceph.image
    have hcore := Kept.core env L (backupBody env af o (newRev uuid ts tags) (s.prepared uuid ts tags).ceph.image
      ((s.prepared uuid ts tags).snapshot (newRev uuid ts tags))).2 ((s.prepared uuid ts tags).ceph.taken.set (newRev uuid ts tags).uuid s.ceph.image)
    have hd := hall.distrust hcore ((s.prepared uuid ts tags).src.repo.localHistory.take k)
      (fun x hx => hall.hist x (List.mem_of_mem_filter (List.mem_of_mem_take hx)))
    exact Sound.ofAll b1 hd (snapsOK_delete (snapshot_snapsOK hst.snaps hno) o' af _)
  | completed o' hv =>
    obtain ⟨b1, b2, b3⟩ := backupBody_com hL af o hst hno hf' hlog
    have hall := hst.ext b2 s.ceph.image
    refine Sound.ofAll b1 (hall.store ?_) (snapsOK_delete (snapshot_snapsOK hst.snaps hno) o' af _)
    intro _ _
    exact ⟨s.ceph.image, by
      show ((s.prepared uuid ts tags).ceph.taken.set uuid s.ceph.image).get? uuid = _
      simp, fun m _ => b3 true hv⟩

theorem Sound.step {env : Env} {L : List Bytes} (hL : CollFree env.H L) {s s' : Sys} (h : Sound env L s)
    (hs : Step env s s') (hlog : s'.src.w.log ⊆ L) : Sound env L s' := by
  have hall := h.all
  have hcore := Kept.core env L s.src.w s.ceph.taken
  have hok := h.okw.fresh
  have hmk : ∀ repo : Repo, All (Kept env L s.src.w s.ceph.taken) repo →
      Sound env L { s.connect with src := { s.connect.src with repo } } :=
    fun repo ha => Sound.ofAll hok (ha.mono (fun r hr => hr.congr rfl)) h.snaps
  have hcs : Sound env L s.connect := hmk s.connect.src.repo hall
  have hraw : All (Kept env L s.src.w s.ceph.taken) s.src.repo.scan := hall
  cases hs with
  | guest img => exact ⟨h.okw, h.named, h.good, h.snaps⟩
  | backup af o uuid ts tags hu hf =>
    rw [(runBackup_launch env af o uuid ts tags s.connect h.named).1] at hlog ⊢
    exact backup_sound hL af o (h.prepared hu ts tags) hf hlog
  | killed s2 af o uuid ts tags hu hf hk => exact h.killed hL hu hf hk hlog
  | rm revs hr => exact hmk _ (hall.rm hcore revs (fun r hx => hall.hist r (hr r hx)))
  | expire sch pd now => exact hmk _ (hall.expire hcore sch pd now)
  | distrust revs hr => exact hmk _ (hall.distrust hcore revs (fun r hx => hall.hist r (hr r hx)))
  | tags sch pd action spec tags expect auto force => exact hmk _ (hall.tagsOp hcore sch pd action spec tags expect auto force)
  | verify order r hr =>
    exact hcs.shrunk (verify_shrunk env order s.connect.src r)
      ((Commands.all_verify hcore hall (hall.hist r hr)).mono (fun r hr => hr.congr rfl))
  | verifyKilled order r hr =>
    exact hcs.shrunk (verifyMark_shrunk env order s.connect.src r)
      ((Commands.all_verifyMark hcore hall (hall.hist r hr)).mono (fun r hr => hr.congr rfl))
  | gc =>
    refine hcs.shrunk (gc_shrunk s.connect.src) ?_
    rw [gc_repo]
    exact hall.mono (fun r hr => hr.congr rfl)
  | gcKilled left =>
    refine hcs.shrunk (gcSome_shrunk left s.connect.src) ?_
    have : (gcSome left s.connect.src).repo = s.connect.src.repo := by unfold gcSome; split <;> rfl
    rw [this]
    exact hall.mono (fun r hr => hr.congr rfl)
  | remote r hr =>
    have := hraw.writeInfo (r := r) (fun hs => absurd hs hr)
    exact ⟨h.okw, this.named, this.disk, h.snaps⟩
  | drop r =>
    have := hraw.drop r
    exact ⟨h.okw, this.named, this.disk, h.snaps⟩
  | snapsGone keep =>
    refine ⟨h.okw, h.named, h.good, ?_⟩
    intro u d hd
    have hd' : Dict.get? (s.ceph.snaps.filter (fun x => keep x.1)) (snapName u) = some d := hd
    rw [Dict.get?_filter] at hd'
    split at hd'
    · exact h.snaps u d hd'
    · cases hd'
  | snapForeign name content hn =>
    refine ⟨h.okw, h.named, h.good, ?_⟩
    intro u d hd
    have hd' : (s.ceph.snaps ++ [(name, content)] : Dict String Bytes).get? (snapName u) = some d := hd
    rw [get?_append_single, if_neg (fun he => by rw [← he, startsWith_snapName] at hn; cases hn)] at hd'
    simp at hd'
    exact h.snaps u d hd'

theorem Damage.log {env : Env} {w w' : World} (h : Damage env w w') : w'.log = w.log := by
  cases h <;> rfl

theorem Sound.damage {env : Env} {L : List Bytes} {s : Sys} (h : Sound env L s) {w : World} (hd : Damage env s.src.w w)
    (hlog : s.src.w.log ⊆ L) : Sound env L { s with src := { s.src with w } } := by
  have hmeta : ∀ w' : World, w'.metas = s.src.w.metas → OkW env L w' → Sound env L { s with src := { s.src with w := w' } } :=
    fun w' hm hw => ⟨hw, h.named, fun u r hr => (h.good u r hr).congr (by rw [hm]), h.snaps⟩
  cases hd with
  | chunkLost x => exact hmeta _ rfl ((erase_shrunk _ x).okW h.okw)
  | chunkUnreadable x =>
    refine hmeta _ rfl ⟨?_, h.okw.seen, h.okw.small⟩
    intro y d hy hH
    dsimp only at hy
    rw [Dict.get?_set] at hy
    split at hy
    · cases hy
    · exact h.okw.chunks y d hy hH
  | chunkChanged x d hd =>
    refine hmeta _ rfl ⟨?_, h.okw.seen, h.okw.small⟩
    intro y d' hy hH
    dsimp only at hy
    rw [Dict.get?_set] at hy
    split at hy
    · rename_i he
      cases hy
      have := hd (hH.trans he)
      exact ⟨hlog this, h.okw.small _ this⟩
    · exact h.okw.chunks y d' hy hH
  | imageLost name =>
    refine ⟨⟨h.okw.chunks, h.okw.seen, h.okw.small⟩, h.named, ?_, h.snaps⟩
    intro u r hr hs hc
    obtain ⟨c, c1, c2⟩ := h.good u r hr hs hc
    refine ⟨c, c1, fun m hm => ?_⟩
    have hm' : (s.src.w.metas.erase name).get? r.uuid = some (some m) := hm
    rw [Dict.get?_erase] at hm'
    split at hm'
    · cases hm'
    · exact onDisk_ideal (hm.trans hm'.symm) (c2 m hm')
  | imageUnreadable name =>
    refine ⟨⟨h.okw.chunks, h.okw.seen, h.okw.small⟩, h.named, ?_, h.snaps⟩
    intro u r hr hs hc
    obtain ⟨c, c1, c2⟩ := h.good u r hr hs hc
    refine ⟨c, c1, fun m hm => ?_⟩
    have hm' : (s.src.w.metas.set name none).get? r.uuid = some (some m) := hm
    rw [Dict.get?_set] at hm'
    split at hm'
    · cases hm'
    · exact onDisk_ideal (hm.trans hm'.symm) (c2 m hm')

theorem Damaged.log {env : Env} {s s' : Sys} (h : Damaged env s s') : s.src.w.log ⊆ s'.src.w.log := by
  induction h with
  | nil => exact fun _ h => h
  | step _ h' ih => exact fun x hx => h'.log (ih hx)
  | damage _ w h' ih => intro x hx; show x ∈ w.log; rw [h'.log]; exact ih hx

theorem Sound.damaged {env : Env} {L : List Bytes} (hL : CollFree env.H L) {s s' : Sys} (h : Sound env L s)
    (hs : Damaged env s s') (hlog : s'.src.w.log ⊆ L) : Sound env L s' := by
  induction hs with
  | nil => exact h
  | step _ h' ih => exact (ih (fun x hx => hlog (h'.log hx))).step hL h' hlog
  | damage _ w h' ih =>
    have hl : w.log ⊆ L := hlog
    rw [h'.log] at hl
    exact (ih hl).damage h' hl

/-! ### Restoring -/

theorem copyLoop_com {env : Env} {L : List Bytes} (hL : CollFree env.H L) (fuel : Nat) :
    ∀ (s : S) (t : PFile), OkS env L s → Quiet s → s.w.log ⊆ L →
      ∀ s' t', copyLoop env fuel s t = (.ok (), s', t') → copyLoop env fuel (idealS env L s) t = (.ok (), idealS env L s', t') := by
  induction fuel with
  | zero => intro s t _ _ _ s' t' h; cases h
  | succ n ih =>
    intro s t h hq hl s' t' hr
    unfold copyLoop readS at hr ⊢
    obtain ⟨q1, q2⟩ := hq.read (env := env) (env.blk : Int)
    have hlog : (s.read env (env.blk : Int)).2.w.log ⊆ L := by rw [Ticked.log q2]; exact hl
    obtain ⟨c1, c2, c3⟩ := read_com hL (env.blk : Int) h hlog
    generalize s.read env (env.blk : Int) = g at *
    obtain ⟨g1, g2⟩ := g
    cases g1 with
    | error e => cases hr
    | ok chunk =>
      rw [c3 chunk rfl]
      dsimp only at hr c1 q1 hlog ⊢
      split at hr
      · rename_i hc; rw [if_pos hc]; cases hr; rfl
      · rename_i hc; rw [if_neg hc]; exact ih g2 _ c1 q1 hlog s' t' hr

theorem copy_com {env : Env} {L : List Bytes} (hL : CollFree env.H L) {s : S} {t : PFile} (h : OkS env L s) (hq : Quiet s)
    (hl : s.w.log ⊆ L) {s' : S} {t' : PFile} (hr : copy env s t = (.ok (), s', t')) :
    copy env (idealS env L s) t = (.ok (), idealS env L s', t') := by
  unfold copy at hr ⊢
  obtain ⟨q1, q2⟩ := hq.seek (env := env) 0 .end_
  have hlog : (s.seek env 0 .end_).2.w.log ⊆ L := by rw [Ticked.log q2]; exact hl
  obtain ⟨c1, c2, c3⟩ := seek_com hL 0 .end_ h hlog
  generalize s.seek env 0 .end_ = g at *
  obtain ⟨g1, g2⟩ := g
  cases g1 with
  | error e => cases hr
  | ok p =>
    rw [c3 p rfl]
    dsimp only at hr c1 q1 hlog ⊢
    obtain ⟨q3, q4⟩ := q1.seek (env := env) 0 .set
    have hlog2 : (g2.seek env 0 .set).2.w.log ⊆ L := by rw [Ticked.log q4]; exact hlog
    obtain ⟨d1, d2, d3⟩ := seek_com hL 0 .set c1 hlog2
    generalize g2.seek env 0 .set = k at *
    obtain ⟨k1, k2⟩ := k
    cases k1 with
    | error e => cases hr
    | ok p2 =>
      rw [d3 p2 rfl]
      dsimp only at hr d1 q3 hlog2 ⊢
      have e : (idealS env L k2).f = k2.f := rfl
      rw [e]
      have hcl := copyLoop_com hL (k2.f.size + 1) k2 t d1 q3 hlog2
      generalize copyLoop env (k2.f.size + 1) k2 t = z at *
      obtain ⟨z1, z2, z3⟩ := z
      cases z1 with
      | error e => cases hr
      | ok u =>
        rw [hcl z2 z3 rfl]
        dsimp only at hr ⊢
        cases hr
        rfl

theorem restore_com {env : Env} {L : List Bytes} (hL : CollFree env.H L) {w : World} (h : OkW env L w) (hl : w.log ⊆ L) (r : Rev)
    (target t : Option Bytes) (hr : restore env w r target = (.ok (), t)) : restore env (ideal env L w) r target = (.ok (), t) := by
  unfold restore at hr ⊢
  rw [open_ideal]
  cases hf : File.open w r.uuid rb with
  | error e => rw [hf] at hr; cases hr
  | ok s =>
    rw [hf] at hr
    dsimp only at hr ⊢
    obtain ⟨o1, _, o3⟩ := open_okS h hf
    obtain ⟨q1, _⟩ := Quiet.open (mode := rb) rfl hf
    unfold restoreFile at hr ⊢
    have hc := fun s' t' => copy_com (t := ⟨target.getD [], 0⟩) hL o1 q1 (by rw [o3]; exact hl) (s' := s') (t' := t')
    generalize copy env s ⟨target.getD [], 0⟩ = z at *
    obtain ⟨z1, z2, z3⟩ := z
    dsimp only at hr
    cases z1 with
    | error e => cases hr
    | ok u =>
      rw [hc z2 z3 rfl]
      dsimp only
      cases hr
      rfl

theorem stdoutLoop_com {env : Env} {L : List Bytes} (hL : CollFree env.H L) (fuel : Nat) :
    ∀ (s : S) (out : Bytes), OkS env L s → Quiet s → s.w.log ⊆ L →
      ∀ s' out', stdoutLoop env fuel s out = (.ok (), s', out') → stdoutLoop env fuel (idealS env L s) out = (.ok (), idealS env L s', out') := by
  induction fuel with
  | zero => intro s t _ _ _ s' t' h; cases h
  | succ n ih =>
    intro s t h hq hl s' t' hr
    unfold stdoutLoop readS at hr ⊢
    obtain ⟨q1, q2⟩ := hq.read (env := env) (env.blk : Int)
    have hlog : (s.read env (env.blk : Int)).2.w.log ⊆ L := by rw [Ticked.log q2]; exact hl
    obtain ⟨c1, c2, c3⟩ := read_com hL (env.blk : Int) h hlog
    generalize s.read env (env.blk : Int) = g at *
    obtain ⟨g1, g2⟩ := g
    cases g1 with
    | error e => cases hr
    | ok chunk =>
      rw [c3 chunk rfl]
      dsimp only at hr c1 q1 hlog ⊢
      split at hr
      · rename_i hc; rw [if_pos hc]; cases hr; rfl
      · rename_i hc; rw [if_neg hc]; exact ih g2 _ c1 q1 hlog s' t' hr

theorem restoreOut_com {env : Env} {L : List Bytes} (hL : CollFree env.H L) {w : World} (h : OkW env L w) (hl : w.log ⊆ L) (r : Rev)
    (out : Bytes) (hr : restoreOut env w r = (.ok (), out)) : restoreOut env (ideal env L w) r = (.ok (), out) := by
  unfold restoreOut at hr ⊢
  rw [open_ideal]
  cases hf : File.open w r.uuid rb with
  | error e => rw [hf] at hr; cases hr
  | ok s =>
    rw [hf] at hr
    dsimp only at hr ⊢
    obtain ⟨o1, _, o3⟩ := open_okS h hf
    obtain ⟨q1, _⟩ := Quiet.open (mode := rb) rfl hf
    unfold restoreStdout at hr ⊢
    have e : (idealS env L s).f = s.f := rfl
    rw [e]
    have hc := stdoutLoop_com hL (s.f.size + 1) s [] o1 q1 (by rw [o3]; exact hl)
    generalize stdoutLoop env (s.f.size + 1) s [] = z at *
    obtain ⟨z1, z2, z3⟩ := z
    dsimp only at hr
    cases z1 with
    | error e => cases hr
    | ok u =>
      rw [hc z2 z3 rfl]
      dsimp only
      cases hr
      rfl

end Verif.Backup
