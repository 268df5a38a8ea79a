import Verif.Props.Compared
import Verif.Props.Verify
/-!
# C81: what a backup records, C83: what it does to the other revisions
-/
namespace Verif.Backup
open Verif Verif.Chunked Verif.Spec Verif.Rbd Verif.Repo Verif.Files Verif.Diff

/-- **C81** In any state: a run that leaves its revision complete (in particular one that exits with 0) has recorded exactly the
requested id, time and tags, as a trusted revision of this server with the duration of the run. -/
theorem C81_record (env : Env) (af : Bool) (o : Rbd) (uuid : String) (ts : Int) (tags : Finset String) (s : Sys)
    (hn : Named s.src.repo.files) (x : Rev)
    (hx : onDisk (runBackup env af o uuid ts tags s).2.src.repo.files uuid = some x) (hc : x.clean = true) :
    x.uuid = uuid ∧ x.ts = ts ∧ x.tags = tags ∧ x.origTags = ∅ ∧ x.server = "" ∧ x.trust = .trusted ∧
      x.stats.get? "duration" = some o.duration := by
  obtain ⟨v1, v2, v3, v4, v5⟩ := (complete_iff_verified env af o uuid ts tags s hn).1 ⟨x, hx, hc⟩
  rw [(runBackup_launch env af o uuid ts tags s hn).1] at hx
  have hsn : (s.launch uuid ts tags).ceph = s.ceph := rfl
  unfold backup at hx
  rw [if_neg (by simp [v1]), hsn, if_neg (by simp only [not_or]; exact ⟨by simp [v2], by
    show ¬ s.ceph.snaps.has (snapName uuid) = true
    simp [v3]⟩)] at hx
  dsimp only at hx
  rw [v5] at hx
  have hdel : ∀ repo snaps, (deleteOldSnapshots o af repo snaps).1 = .ok () := by
    intro repo snaps; simp [deleteOldSnapshots, v4]
  rw [hdel] at hx
  simp only [exitWith, afterSnapshot] at hx
  have := conclude_files (env := env) (o := o) (s := { (s.launch uuid ts tags).src with w := (backupBody env af o (newRev uuid ts tags)
    s.ceph.image ((s.launch uuid ts tags).snapshot (newRev uuid ts tags))).2 }) (launch_named hn uuid ts tags)
    (r := newRev uuid ts tags) rfl (by simp [newRev]) true
  change onDisk _ uuid = _ at this
  rw [this] at hx
  simp only [if_true, Option.some.injEq] at hx
  subst hx
  exact ⟨rfl, rfl, rfl, rfl, rfl, rfl, by simp [finished]⟩

/-- **C81** … and the size it records, the one `backy log` prints, is 0 whatever was transferred: the counter of the file the
data goes through is never the one of the revision (`rbd/__init__.py:118` passes no `stats`). -/
theorem C81_size_zero (env : Env) (af : Bool) (o : Rbd) (uuid : String) (ts : Int) (tags : Finset String) (s : Sys)
    (hn : Named s.src.repo.files) (x : Rev)
    (hx : onDisk (runBackup env af o uuid ts tags s).2.src.repo.files uuid = some x) (hc : x.clean = true) :
    x.stats.get? "bytes_written" = some 0 := by
  obtain ⟨v1, v2, v3, v4, v5⟩ := (complete_iff_verified env af o uuid ts tags s hn).1 ⟨x, hx, hc⟩
  rw [(runBackup_launch env af o uuid ts tags s hn).1] at hx
  have hsn : (s.launch uuid ts tags).ceph = s.ceph := rfl
  unfold backup at hx
  rw [if_neg (by simp [v1]), hsn, if_neg (by simp only [not_or]; exact ⟨by simp [v2], by
    show ¬ s.ceph.snaps.has (snapName uuid) = true
    simp [v3]⟩)] at hx
  dsimp only at hx
  rw [v5] at hx
  have hdel : ∀ repo snaps, (deleteOldSnapshots o af repo snaps).1 = .ok () := by
    intro repo snaps; simp [deleteOldSnapshots, v4]
  rw [hdel] at hx
  simp only [exitWith, afterSnapshot] at hx
  have := conclude_files (env := env) (o := o) (s := { (s.launch uuid ts tags).src with w := (backupBody env af o (newRev uuid ts tags)
    s.ceph.image ((s.launch uuid ts tags).snapshot (newRev uuid ts tags))).2 }) (launch_named hn uuid ts tags)
    (r := newRev uuid ts tags) rfl (by simp [newRev]) true
  change onDisk _ uuid = _ at this
  rw [this] at hx
  simp only [if_true, Option.some.injEq] at hx
  subst hx
  show (((newRev uuid ts tags).stats.set "ceph-verification" 0).set "duration" o.duration).get? "bytes_written" = some 0
  rw [Dict.get?_set, if_neg (by decide), Dict.get?_set, if_neg (by decide)]
  rfl

/-! ## C83 -/

/-- A complete revision of this server whose verification at the end of the run found a chunk that cannot be read. -/
def FoundBad (env : Env) (o : Rbd) (w : World) (repo : Repo) (x : Rev) : Prop :=
  x.server = "" ∧ x.clean = true ∧ ∃ cand h, verifyCandidates o.order ⟨repo, w⟩ x = .ok cand ∧ firstBad env w cand = some h

theorem verifyDistrusted_other {env : Env} {o : Rbd} {s : Src} (hn : Named s.repo.files) {x : Rev}
    (hx : onDisk s.repo.files x.uuid = some x) :
    onDisk (verifyDistrusted env o s).2.repo.files x.uuid = some x ∨
    x.server = "" ∧ (onDisk (verifyDistrusted env o s).2.repo.files x.uuid = some { x with trust := .verified } ∨
      onDisk (verifyDistrusted env o s).2.repo.files x.uuid = none ∧ FoundBad env o s.w s.repo.scan x) := by
  unfold verifyDistrusted
  cases hf : (s.repo.scan.getHistory true true).reverse.find? (fun r => decide (r.trust = .distrusted)) with
  | none => exact .inl hx
  | some r =>
    obtain ⟨h1, hc, hl⟩ := mem_getHistory.1 (List.mem_reverse.1 (List.mem_of_find?_eq_some hf))
    have h3 := (Repo.scan_mem hn r).1 h1
    dsimp only
    by_cases hne : x.uuid = r.uuid
    · have hxr : x = r := by rw [hne, h3] at hx; exact (Option.some.inj hx).symm
      subst hxr
      have hsv : x.server = "" := by simpa [Rev.isLocal] using hl
      unfold Src.verify Src.verifyMark
      cases hv : verifyCandidates o.order { s with repo := s.repo.scan } x with
      | error e => exact .inl hx
      | ok cand =>
        dsimp only
        cases hb : firstBad env s.w cand with
        | some h =>
          dsimp only
          rw [gc_repo]
          refine .inr ⟨hsv, .inr ⟨?_, hsv, by simpa using hc, cand, h, hv, hb⟩⟩
          dsimp only
          rw [remove_local hsv, drop_files, if_pos rfl]
        | none =>
          dsimp only
          rw [if_neg (by simp [hsv])]
          dsimp only
          rw [gc_repo]
          refine .inr ⟨hsv, .inl ?_⟩
          dsimp only
          rw [store_files, if_pos rfl]
    · rw [verify_files hne]
      exact .inl hx

/-- What a run may do to the record of another revision. -/
def Touched (x : Rev) (after : Option Rev) (bad : Rev → Prop) : Prop :=
  after = some x ∨ x.server = "" ∧ ((∃ t, after = some { x with trust := t }) ∨ after = none ∧ ∃ t, bad { x with trust := t })

theorem conclude_other {env : Env} {o : Rbd} {s : Src} (hn : Named s.repo.files) {r : Rev} (hl : r.server = "") (v : Bool)
    {x : Rev} (hx : onDisk s.repo.files x.uuid = some x) (hne : x.uuid ≠ r.uuid) :
    ∃ repo, Touched x (onDisk (conclude env o r v s).2.repo.files x.uuid) (FoundBad env o s.w repo) := by
  unfold conclude
  generalize hs' : (if v then { s with repo := s.repo.store (finished o r) } else { s with repo := s.repo.remove r } : Src) = s'
  have hn' : Named s'.repo.files := by
    subst hs'
    cases v
    · show Named (s.repo.remove r).files; rw [remove_local hl]; exact hn.erase _
    · exact hn.set (finished o r)
  have hx' : onDisk s'.repo.files x.uuid = some x := by
    subst hs'
    cases v
    · show onDisk (s.repo.remove r).files x.uuid = _; rw [remove_files_ne hne]; exact hx
    · show onDisk (s.repo.store (finished o r)).files x.uuid = _
      rw [store_files, if_neg (show x.uuid ≠ (finished o r).uuid from hne)]; exact hx
  have hw : s'.w = s.w := by subst hs'; cases v <;> rfl
  refine ⟨s'.repo.scan, ?_⟩
  have h := verifyDistrusted_other (env := env) (o := o) hn' hx'
  rw [hw] at h
  have key : Touched x (onDisk (verifyDistrusted env o s').2.repo.files x.uuid) (FoundBad env o s.w s'.repo.scan) := by
    rcases h with h | ⟨h1, h | ⟨h2, h3⟩⟩
    · exact .inl h
    · exact .inr ⟨h1, .inl ⟨_, h⟩⟩
    · exact .inr ⟨h1, .inr ⟨h2, x.trust, h3⟩⟩
  generalize verifyDistrusted env o s' = g at *
  obtain ⟨g1, g2⟩ := g
  cases g1 <;> exact key

theorem afterSnapshot_other {env : Env} {o : Rbd} {s : Src} (hn : Named s.repo.files) (hsync : Sync s.repo) {r : Rev}
    (hl : r.server = "") (res : Except PyErr Bool) {x : Rev} (hx : onDisk s.repo.files x.uuid = some x) (hne : x.uuid ≠ r.uuid) :
    ∃ repo, Touched x (onDisk (afterSnapshot env o r res s).2.repo.files x.uuid) (FoundBad env o s.w repo) := by
  unfold afterSnapshot
  split
  · exact conclude_other hn hl _ hx hne
  · have hloc : ∀ y ∈ s.repo.localHistory, y.server = "" := fun y hy => (mem_localHistory.1 hy).2
    obtain ⟨s', hd⟩ := distrust_local s.repo.localHistory s.repo hloc
    have hn' := distrust_named s.repo.localHistory s.repo hn
    have hnd : (s.repo.localHistory.map Rev.uuid).Nodup :=
      hsync.nodup.sublist (List.filter_sublist.map _)
    have hf := distrust_files s.repo.localHistory s.repo hloc hnd x.uuid
    rw [hd] at hn' hf ⊢
    dsimp only at hn' hf ⊢
    by_cases hxl : x.server = ""
    · have hxm : x ∈ s.repo.localHistory := mem_localHistory.2 ⟨(hsync.mem x).2 hx, hxl⟩
      have hfind : s.repo.localHistory.find? (fun r => decide (r.uuid = x.uuid)) = some x := by
        cases hq : s.repo.localHistory.find? (fun r => decide (r.uuid = x.uuid)) with
        | none => have := List.find?_eq_none.1 hq x hxm; simp at this
        | some y =>
          have h1 : y.uuid = x.uuid := by simpa using List.find?_some hq
          rw [eq_of_uuid hnd (List.mem_of_find?_eq_some hq) hxm h1]
      rw [hfind] at hf
      dsimp only at hf
      obtain ⟨repo, h⟩ := conclude_other (env := env) (o := o) (s := { s with repo := s' }) hn' hl false
        (x := { x with trust := .distrusted }) hf hne
      refine ⟨repo, ?_⟩
      rcases h with h | ⟨h1, ⟨t, h⟩ | ⟨h2, t, h3⟩⟩
      · exact .inr ⟨hxl, .inl ⟨_, h⟩⟩
      · exact .inr ⟨hxl, .inl ⟨t, h⟩⟩
      · exact .inr ⟨hxl, .inr ⟨h2, t, h3⟩⟩
    · have hfind : s.repo.localHistory.find? (fun r => decide (r.uuid = x.uuid)) = none := by
        rw [List.find?_eq_none]
        intro y hy
        simp only [decide_eq_true_eq]
        intro hyx
        obtain ⟨hy1, hy2⟩ := mem_localHistory.1 hy
        have := (hsync.mem y).1 hy1
        rw [hyx, hx] at this
        cases this
        exact hxl hy2
      rw [hfind] at hf
      dsimp only at hf
      exact conclude_other (s := { s with repo := s' }) hn' hl false (hf.trans hx) hne
  · exact ⟨s.repo, .inl hx⟩

/-- The new process finds the other revisions that are complete or of another server. -/
theorem prepared_other (uuid : String) (ts : Int) (tags : Finset String) (s : Sys)
    (hn : Named s.src.repo.files) (x : Rev) (hx : onDisk s.src.repo.files x.uuid = some x) (hne : x.uuid ≠ uuid)
    (hk : x.server ≠ "" ∨ x.clean = true) : onDisk (s.prepared uuid ts tags).src.repo.files x.uuid = some x := by
  have hsync : Sync s.connect.src.repo := Sync.scan hn
  have hclean := clean_complete hsync
  have hx0 : x ∈ s.connect.src.repo.clean.history := by
    rw [hclean.2]
    refine ⟨(hsync.mem x).2 hx, ?_⟩
    intro h
    rcases hk with h' | h'
    · exact absurd (by simpa [Rev.isLocal] using h) h'
    · exact h'
  have hx1 : onDisk s.connect.src.repo.clean.files x.uuid = some x := (hclean.1.mem x).1 hx0
  show onDisk (s.connect.src.repo.clean.files.set (newRev uuid ts tags).uuid ⟨false, newRev uuid ts tags⟩) _ = _
  rw [onDisk_set, if_neg (show x.uuid ≠ (newRev uuid ts tags).uuid from hne)]
  exact hx1

/-- The run, for another revision that is complete or of another server. -/
theorem runBackup_other (env : Env) (af : Bool) (o : Rbd) (uuid : String) (ts : Int) (tags : Finset String) (s : Sys)
    (hn : Named s.src.repo.files) (x : Rev) (hx : onDisk s.src.repo.files x.uuid = some x) (hne : x.uuid ≠ uuid)
    (hk : x.server ≠ "" ∨ x.clean = true) :
    ∃ repo, Touched x (onDisk (runBackup env af o uuid ts tags s.connect).2.src.repo.files x.uuid)
      (FoundBad env o (backupBody env af o (newRev uuid ts tags) s.ceph.image
        ((s.prepared uuid ts tags).snapshot (newRev uuid ts tags))).2 repo) := by
  have hn' : Named s.connect.src.repo.files := hn
  rw [(runBackup_launch env af o uuid ts tags s.connect hn').1]
  change ∃ repo, Touched x (onDisk (backup env af o (newRev uuid ts tags) (s.prepared uuid ts tags)).2.src.repo.files x.uuid) _
  have hxp := prepared_other uuid ts tags s hn x hx hne hk
  have hnp : Named (s.prepared uuid ts tags).src.repo.files := launch_named hn' uuid ts tags
  have hsp : Sync (s.prepared uuid ts tags).src.repo := Sync.scan (launch_named hn' uuid ts tags)
  unfold backup
  split
  · exact ⟨(s.prepared uuid ts tags).src.repo, .inl hxp⟩
  · split
    · exact ⟨(s.prepared uuid ts tags).src.repo, .inl hxp⟩
    · dsimp only
      have himg : (s.prepared uuid ts tags).ceph.image = s.ceph.image := rfl
      rw [himg]
      exact afterSnapshot_other (s := ⟨(s.prepared uuid ts tags).src.repo, (backupBody env af o (newRev uuid ts tags) s.ceph.image
        ((s.prepared uuid ts tags).snapshot (newRev uuid ts tags))).2⟩) hnp hsp rfl
        (exitWith (backupBody env af o (newRev uuid ts tags) s.ceph.image ((s.prepared uuid ts tags).snapshot (newRev uuid ts tags))).1
          (deleteOldSnapshots o af (s.prepared uuid ts tags).src.repo
            ((s.prepared uuid ts tags).snapshot (newRev uuid ts tags)).ceph.snaps).1) hxp hne

/-- **C83** In any state, whatever happens during the run: the record of a revision of another server is not touched, and ... -/
theorem C83_remote_untouched (env : Env) (af : Bool) (o : Rbd) (uuid : String) (ts : Int) (tags : Finset String) (s : Sys)
    (hn : Named s.src.repo.files) (x : Rev) (hx : onDisk s.src.repo.files x.uuid = some x) (hne : x.uuid ≠ uuid)
    (hr : x.server ≠ "") :
    onDisk (runBackup env af o uuid ts tags s.connect).2.src.repo.files x.uuid = some x := by
  obtain ⟨_, h | ⟨h, _⟩⟩ := runBackup_other env af o uuid ts tags s hn x hx hne (.inl hr)
  · exact h
  · exact absurd h hr

/-- **C83** ... the record of another complete revision of this server changes at most in its trust, unless it is removed. -/
theorem C83_local_record (env : Env) (af : Bool) (o : Rbd) (uuid : String) (ts : Int) (tags : Finset String) (s : Sys)
    (hn : Named s.src.repo.files) (x : Rev) (hx : onDisk s.src.repo.files x.uuid = some x) (hne : x.uuid ≠ uuid)
    (hc : x.clean = true) (y : Rev)
    (hy : onDisk (runBackup env af o uuid ts tags s.connect).2.src.repo.files x.uuid = some y) :
    y.uuid = x.uuid ∧ y.ts = x.ts ∧ y.tags = x.tags ∧ y.origTags = x.origTags ∧ y.stats = x.stats ∧ y.server = x.server := by
  obtain ⟨_, h⟩ := runBackup_other env af o uuid ts tags s hn x hx hne (.inr hc)
  rcases h with h | ⟨_, ⟨t, h⟩ | ⟨h, _⟩⟩
  · rw [h] at hy; cases hy; simp
  · rw [h] at hy; cases hy; simp
  · rw [h] at hy; cases hy

/-- **C83** In every reachable state (nothing is damaged), whatever `rbd` exports and whatever fails: no other complete revision of
this server is removed. -/
theorem C83_none_removed (env : Env) (s0 s : Sys) (h0 : Initial s0) (hs : Steps env s0 s) (af : Bool) (o : Rbd)
    (ho : ∀ l, (o.order l).Perm l) (uuid : String) (ts : Int) (tags : Finset String) (hu : Fresh s uuid)
    (hcoll : CollFree env.H (runBackup env af o uuid ts tags s.connect).2.src.w.log)
    (x : Rev) (hx : onDisk s.src.repo.files x.uuid = some x) (hc : x.clean = true) (hl : x.server = "") (hne : x.uuid ≠ uuid) :
    ∃ t, onDisk (runBackup env af o uuid ts tags s.connect).2.src.repo.files x.uuid = some { x with trust := t } := by
  have hlog0 : s.src.w.log ⊆ (runBackup env af o uuid ts tags s.connect).2.src.w.log := runBackup_log env af o uuid ts tags s.connect
  have hg := (Good.initial (env := env) h0).steps hcoll hs hlog0
  have hn : Named s.src.repo.files := hg.disk.named
  obtain ⟨repo, h⟩ := runBackup_other env af o uuid ts tags s hn x hx hne (.inr hc)
  rcases h with h | ⟨_, ⟨t, h⟩ | ⟨hnone, t, _, _, cand, b, h1, h2⟩⟩
  · exact ⟨x.trust, h⟩
  · exact ⟨t, h⟩
  · exfalso
    have hst := hg.prepared hu ts tags
    have hno := prepared_noSnap hu ts tags
    have himg : (s.prepared uuid ts tags).ceph.image = s.ceph.image := rfl
    have hxp := prepared_other uuid ts tags s hn x hx hne (.inr hc)
    rw [(runBackup_launch env af o uuid ts tags s.connect hn).1] at hcoll hnone
    change CollFree env.H (backup env af o (newRev uuid ts tags) (s.prepared uuid ts tags)).2.src.w.log at hcoll
    change onDisk (backup env af o (newRev uuid ts tags) (s.prepared uuid ts tags)).2.src.repo.files x.uuid = none at hnone
    unfold backup at hcoll hnone
    by_cases c1 : o.ready = false
    · rw [if_pos c1] at hnone
      rw [hxp] at hnone; cases hnone
    rw [if_neg c1] at hcoll hnone
    by_cases c2 : o.snapCreateFails = true ∨ (s.prepared uuid ts tags).ceph.snaps.has (snapName (newRev uuid ts tags).uuid) = true
    · rw [if_pos c2] at hnone
      rw [hxp] at hnone; cases hnone
    rw [if_neg c2] at hcoll
    dsimp only at hcoll
    rw [afterSnapshot_log, himg] at hcoll
    obtain ⟨w1, w2, _⟩ := backupBody_any hcoll af o hst hno (fun _ h => h)
    rw [himg] at w1 w2
    have hmiss := firstBad_some w1 cand h2
    have hbm := (firstBad_mem h2).1
    rw [(verifyCandidates_ok ho h1).1] at hbm
    obtain ⟨⟨m, m1, m2⟩, _⟩ := hbm
    dsimp only at m1
    rw [w2.metas _ hne] at m1
    obtain ⟨c, _, m', n1, _, n3, _⟩ := hst.mem.disk.good _ _ hxp hl hc
    rw [n1] at m1
    cases m1
    obtain ⟨d, hd⟩ := n3 _ m2
    have := w2.chunks _ _ hd
    rw [hmiss] at this
    cases this

/-- The second backup of the example records what was asked for, and leaves the first one as it is. -/
example : ∃ x, onDisk exSecond.src.repo.files "b" = some x ∧ x.clean = true ∧ x.ts = 20 ∧ x.tags = {"daily"} :=
  ⟨finished (idealRbd [] []) (newRev "b" 20 {"daily"}), by decide +kernel, by decide +kernel, by decide +kernel, by decide +kernel⟩

example : ∃ t, onDisk exSecond.src.repo.files "a" = some { finished (idealRbd [] []) (newRev "a" 10 {"daily"}) with trust := t } :=
  C83_none_removed Test.env exNew exChanged exNew_initial exChanged_steps false (idealRbd [0, 0, 0, 0, 2, 2, 2, 2] [1])
    (fun _ => List.Perm.refl _) "b" 20 {"daily"} exChanged_fresh (Test.collFree _) (finished (idealRbd [] []) (newRev "a" 10 {"daily"}))
    (by decide +kernel) (by decide +kernel) (by decide +kernel) (by decide)

/-- C81_record and C81_size_zero: the second backup. -/
example := C81_record Test.env false (idealRbd [0, 0, 0, 0, 2, 2, 2, 2] [1]) "b" 20 {"daily"} exChanged.connect exChanged_named
  (finished (idealRbd [] []) (newRev "b" 20 {"daily"})) (by decide +kernel) (by decide +kernel)
example := C81_size_zero Test.env false (idealRbd [0, 0, 0, 0, 2, 2, 2, 2] [1]) "b" 20 {"daily"} exChanged.connect exChanged_named
  (finished (idealRbd [] []) (newRev "b" 20 {"daily"})) (by decide +kernel) (by decide +kernel)

/-- C83_local_record: the first revision, after the second backup. -/
example := C83_local_record Test.env false (idealRbd [0, 0, 0, 0, 2, 2, 2, 2] [1]) "b" 20 {"daily"} exChanged exChanged_named
  (finished (idealRbd [] []) (newRev "a" 10 {"daily"})) (by decide +kernel) (by decide) (by decide +kernel) _
  (show onDisk exSecond.src.repo.files "a" = some (finished (idealRbd [] []) (newRev "a" 10 {"daily"})) by decide +kernel)

/-- C83_remote_untouched: a revision of another server and one of this server, and a second backup. -/
def exForeign : Sys :=
  { exNew with src := { exNew.src with repo := { exNew.src.repo with
      files := [("r", ⟨false, ⟨"r", 5, [], .trusted, {"daily"}, {"daily"}, "srv2"⟩⟩), ("a", ⟨false, newRev "a" 10 {"daily"}⟩)] } } }
theorem exForeign_named : Named exForeign.src.repo.files := by
  refine ⟨by decide, ?_⟩
  intro n f hm _
  simp only [exForeign, List.mem_cons, Prod.mk.injEq, List.not_mem_nil, or_false] at hm
  rcases hm with ⟨rfl, rfl⟩ | ⟨rfl, rfl⟩ <;> rfl
example := C83_remote_untouched Test.env false (idealRbd [0, 0, 0, 0, 1, 1, 1, 1] [1]) "b" 20 {"daily"} exForeign exForeign_named
  ⟨"r", 5, [], .trusted, {"daily"}, {"daily"}, "srv2"⟩ (by decide +kernel) (by decide) (by decide)

end Verif.Backup
