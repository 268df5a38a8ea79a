import Verif.Model.Callback
import Verif.Props.Pull
import Verif.Proofs.RepoAll
/-!
# C93: what the completion callback is told
-/
namespace Verif.Callback
open Verif Verif.Repo Verif.Sync

/-! ## Memory and directory -/

theorem sync_store_uuid {s : Repo} (h : Verif.Repo.Sync s) {r : Rev} (hr : r.uuid ∈ s.history.map Rev.uuid) : Verif.Repo.Sync (s.store r) := by
  obtain ⟨r0, h0, h1⟩ := List.mem_map.1 hr
  exact h.store h0 h1.symm

/-- A loop that changes and stores revisions. -/
theorem sync_foldl (f : Repo → Rev → Repo)
    (hf : ∀ s r, f s r = s ∨ ∃ r', r'.uuid = r.uuid ∧ f s r = s.store r') : ∀ (l : List Rev) (s : Repo), Verif.Repo.Sync s →
    (∀ r ∈ l, r.uuid ∈ s.history.map Rev.uuid) →
    Verif.Repo.Sync (l.foldl f s) ∧ (l.foldl f s).history.map Rev.uuid = s.history.map Rev.uuid
  | [], s, h, _ => ⟨h, rfl⟩
  | r :: l, s, h, hl => by
    rw [List.foldl_cons]
    rcases hf s r with e | ⟨r', hu, e⟩
    · rw [e]; exact sync_foldl f hf l s h (fun x hx => hl x (by simp [hx]))
    · rw [e]
      have hst := sync_store_uuid h (r := r') (by rw [hu]; exact hl r (by simp))
      have hids : (s.store r').history.map Rev.uuid = s.history.map Rev.uuid := assign_uuids s r'
      obtain ⟨i1, i2⟩ := sync_foldl f hf l (s.store r') hst (fun x hx => by rw [hids]; exact hl x (by simp [hx]))
      exact ⟨i1, i2.trans hids⟩

/-- A loop that removes revisions. -/
theorem sync_remove : ∀ (l : List Rev) (s : Repo), Verif.Repo.Sync s → (l.map Rev.uuid).Nodup →
    (∀ r ∈ l, r.uuid ∈ s.history.map Rev.uuid) → Verif.Repo.Sync (l.foldl (fun s r => s.remove r) s)
  | [], s, h, _, _ => h
  | r :: l, s, h, hn, hl => by
    rw [List.foldl_cons]
    rw [List.map_cons, List.nodup_cons] at hn
    obtain ⟨r0, h0, h1⟩ := List.mem_map.1 (hl r (by simp))
    refine sync_remove l _ (h.remove ⟨r0, h0, h1.symm⟩ false) hn.2 ?_
    intro x hx
    have hxs := hl x (by simp [hx])
    unfold Repo.remove
    split
    · show x.uuid ∈ (s.assign _).history.map Rev.uuid
      rw [assign_uuids]; exact hxs
    · obtain ⟨y, hy, hyu⟩ := List.mem_map.1 hxs
      refine List.mem_map.2 ⟨y, ?_, hyu⟩
      show y ∈ s.history.filter _
      rw [List.mem_filter]
      refine ⟨hy, decide_eq_true ?_⟩
      rw [hyu]
      intro he
      exact hn.1 (he ▸ List.mem_map.2 ⟨x, hx, rfl⟩)

theorem sync_expireRevs (tag : String) (thr : Int) : ∀ (l : List Rev) (s : Repo), Verif.Repo.Sync s →
    (∀ r ∈ l, r.uuid ∈ s.history.map Rev.uuid) → Verif.Repo.Sync (expireRevs tag thr l s).2
  | [], _, h, _ => h
  | r :: l, s, h, hl => by
    simp only [expireRevs]
    split
    · exact sync_expireRevs tag thr l s h (fun x hx => hl x (by simp [hx]))
    · split
      · exact h
      · refine sync_expireRevs tag thr l _ ?_ ?_
        · exact sync_store_uuid h (r := { r with tags := r.tags.erase tag }) (hl r (by simp))
        · intro x hx
          have := hl x (by simp [hx])
          show x.uuid ∈ (s.assign _).history.map Rev.uuid
          rw [assign_uuids]; exact this

theorem sync_phase1 (pd : String → Option Int) (now : String → Int) : ∀ (l : List (String × TagSpec)) (s : Repo), Verif.Repo.Sync s →
    Verif.Repo.Sync (expirePhase1 pd now l s).2
  | [], s, h => h
  | (tag, a) :: l, s, h => by
    simp only [expirePhase1, expireTag]
    cases hf : findRevisions ⟨s.history, pd⟩ ("tag:" ++ tag) with
    | error e => exact h
    | ok revs =>
      dsimp only
      have hmem := (C37_results_from_history _ (nodup_of_map_uuid h.nodup) _ revs hf).1
      by_cases hk : revs.length < a.keep
      · rw [if_pos hk]; exact sync_phase1 pd now l s h
      · rw [if_neg hk]
        have hs := sync_expireRevs tag (now tag - a.keep * a.interval) (dropNewest a.keep revs) s h (by
          intro r hr
          have : r ∈ revs := by
            unfold dropNewest at hr
            split at hr
            · cases hr
            · exact List.mem_of_mem_take hr
          exact List.mem_map.2 ⟨r, hmem r this, rfl⟩)
        generalize expireRevs tag (now tag - a.keep * a.interval) (dropNewest a.keep revs) s = g at *
        obtain ⟨g1, g2⟩ := g
        cases g1 with
        | error e => exact hs
        | ok u => exact sync_phase1 pd now l g2 hs

/-- After an expiry the memory is what is in the directory, whatever it was before. -/
theorem sync_expire (sch : Schedule) (pd : String → Option Int) (now : String → Int) (s : Repo) (hn : Named s.files) :
    Verif.Repo.Sync (sch.expire pd now s).2 := by
  have h1 := sync_phase1 pd now sch s.scan (Sync.scan hn)
  unfold Schedule.expire
  split
  · rename_i heq; rw [heq] at h1; exact h1
  · rename_i s' heq
    rw [heq] at h1
    dsimp only
    have h2 : Verif.Repo.Sync (expirePhase2 sch s') := by
      unfold expirePhase2
      refine (sync_foldl _ ?_ _ s' h1 (fun r hr => List.mem_map.2 ⟨r, hr, rfl⟩)).1
      intro s r
      by_cases ht : expiredTags sch r.tags ≠ ∅
      · right; exact ⟨{ r with tags := r.tags \ expiredTags sch r.tags }, rfl, by rw [if_pos ht]⟩
      · left; rw [if_neg ht]
    unfold expirePhase3
    refine sync_remove _ _ h2 (h2.nodup.sublist (List.Sublist.map _ List.filter_sublist)) ?_
    intro r hr
    exact List.mem_map.2 ⟨r, List.mem_of_mem_filter hr, rfl⟩

theorem named_foldl_drop : ∀ (l : List Rev) (s : Repo), Named s.files → Named (l.foldl (fun s r => s.remove r true) s).files
  | [], _, h => h
  | r :: l, s, h => by
    rw [List.foldl_cons]
    refine named_foldl_drop l _ ?_
    rw [remove_force]; exact h.erase _

theorem named_writeRemote (same : Rev → Rev → Bool) (ids : List String) : ∀ (l : List Rev) (s : Repo), Named s.files →
    Named (writeRemote same ids l s).2.files
  | [], _, h => h
  | r :: l, s, h => by
    simp only [writeRemote]
    split
    · split
      · exact h
      · split
        · exact named_writeRemote same ids l s h
        · exact named_writeRemote same ids l _ (h.set r)
    · exact named_writeRemote same ids l _ (h.set r)

theorem named_pullPeers (same : Rev → Rev → Bool) : ∀ (answers : List (String × Answer)) (s : Repo), Named s.files →
    Named (pullPeers same answers s).2.files
  | [], _, h => h
  | (peer, a) :: rest, s, h => by
    have h1 : Named (pullSingle same peer a s).2.files := by
      simp only [pullSingle]
      split
      · exact h
      split
      · exact h
      · rename_i remote err _
        have := named_writeRemote same ((s.history.filter (fun r => decide (r.server = peer))).map Rev.uuid) remote
          (dropUnknown peer remote s) (named_foldl_drop _ _ h)
        split
        · rename_i heq; rw [heq] at this; exact this
        · rename_i heq; rw [heq] at this; exact this
    simp only [pullPeers]
    split
    · rename_i heq; rw [heq] at h1; exact h1
    · rename_i s' heq
      rw [heq] at h1
      have h2 := named_pullPeers same rest s' h1
      split
      · rename_i heq; rw [heq] at h2; exact h2
      · rename_i heq; rw [heq] at h2; exact h2

theorem named_pull (same : Rev → Rev → Bool) (answers : List (String × Answer)) (s : Repo) (h : Named s.files) :
    Named (pull same answers s).2.files :=
  named_pullPeers same answers _ (named_foldl_drop _ _ h)

theorem sync_pushLoop (pd : String → Option Int) (token name : String) (net : Nat → Net) : ∀ (l : List Rev) (k : Nat) (p : Push),
    Verif.Repo.Sync p.s → (l.map Rev.uuid).Nodup → (∀ r ∈ l, r.uuid ∈ p.s.history.map Rev.uuid) →
    Verif.Repo.Sync (pushLoop pd token name net k l p).s
  | [], _, p, h, _, _ => h
  | r :: l, k, p, h, hn, hl => by
    rw [List.map_cons, List.nodup_cons] at hn
    simp only [pushLoop]
    have hl' : ∀ x ∈ l, x.uuid ∈ p.s.history.map Rev.uuid := fun x hx => hl x (by simp [hx])
    refine sync_pushLoop pd token name net l (k + 1) _ ?_ hn.2 ?_
    · unfold pushOne
      split
      · split
        · show Verif.Repo.Sync (p.s.remove r true)
          rw [remove_force]; exact h.drop r
        · exact sync_store_uuid h (r := { r with origTags := r.tags }) (hl r (by simp))
      · exact h
    · intro x hx
      unfold pushOne
      split
      · split
        · show x.uuid ∈ (p.s.remove r true).history.map Rev.uuid
          rw [remove_force]
          obtain ⟨y, hy, hyu⟩ := List.mem_map.1 (hl' x hx)
          refine List.mem_map.2 ⟨y, ?_, hyu⟩
          show y ∈ p.s.history.filter _
          rw [List.mem_filter]
          refine ⟨hy, decide_eq_true ?_⟩
          rw [hyu]
          intro he
          exact hn.1 (he ▸ List.mem_map.2 ⟨x, hx, rfl⟩)
        · show x.uuid ∈ (p.s.assign _).history.map Rev.uuid
          rw [assign_uuids]; exact hl' x hx
      · exact hl' x hx

theorem sync_push (pd : String → Option Int) (peer token name : String) (net : Nat → Net) (s : Repo) (srv : Api.Server)
    (h : Verif.Repo.Sync s) : Verif.Repo.Sync (push pd peer token name net s srv).s := by
  have hsub : (pendingFor peer s).Sublist s.history := List.filter_sublist.trans List.filter_sublist
  have := sync_pushLoop pd token name net (pendingFor peer s) 0 ⟨s, srv, false, false⟩ h
    (h.nodup.sublist (List.Sublist.map _ hsub)) (fun r hr => List.mem_map.2 ⟨r, hsub.subset hr, rfl⟩)
  unfold push pushPurge
  split
  · exact this
  · exact this

theorem sync_pushAll (pd : String → Option Int) (job : String) : ∀ (peers : List Peer) (s : Repo), Verif.Repo.Sync s →
    Verif.Repo.Sync (pushAll pd job peers s)
  | [], _, h => h
  | p :: peers, s, h => sync_pushAll pd job peers _ (sync_push pd p.name p.token job p.net s p.srv h)

/-! ## C93 -/

/-- **C93 (partial)** After a run that has made a backup of its own, the callback is told exactly the revisions whose
metadata is in the directory then, each once and with the content of its file: whatever the backup left in the directory,
whatever peers answer and whatever becomes of the requests to them.  Missing: runs that leave the backup to a peer, see
`C93_false_skipped`. -/
theorem C93_own_backup_partial (same : Rev → Rev → Bool) (answers : List (String × Answer)) (sch : Schedule)
    (pd : String → Option Int) (now : String → Int) (job : String) (peers : List Peer) (s s' : Repo) (hn : Named s.files)
    (ho : own same answers sch pd now job peers s = some s') :
    (∀ r, r ∈ told s' ↔ onDisk s'.files r.uuid = some r) ∧ ((told s').map Rev.uuid).Nodup := by
  have h1 : Named s.scan.clean.files := (clean_complete (Sync.scan hn)).1.named
  have h2 := named_pull same answers s.scan.clean h1
  unfold own at ho
  split at ho
  · cases ho
  · rename_i s1 heq
    rw [heq] at h2
    have h3 := sync_expire sch pd now s1 h2
    split at ho
    · cases ho
    · rename_i s2 heq2
      rw [heq2] at h3
      cases ho
      have h4 := sync_pushAll pd job peers s2 h3
      exact ⟨h4.mem, h4.nodup⟩

theorem drop_sub : ∀ (l : List Rev) (s : Repo) (x : Rev), x ∈ (l.foldl (fun s r => s.remove r true) s).history → x ∈ s.history
  | [], _, _, h => h
  | r :: l, s, x, h => by
    rw [List.foldl_cons] at h
    have := drop_sub l _ x h
    rw [remove_force] at this
    exact List.mem_of_mem_filter this

theorem writeRemote_history (same : Rev → Rev → Bool) (ids : List String) : ∀ (l : List Rev) (s : Repo),
    (writeRemote same ids l s).2.history = s.history
  | [], _ => rfl
  | r :: l, s => by
    simp only [writeRemote]
    split
    · split
      · rfl
      · split
        · exact writeRemote_history same ids l s
        · rw [writeRemote_history same ids l]; rfl
    · rw [writeRemote_history same ids l]; rfl

theorem pullPeers_sub (same : Rev → Rev → Bool) : ∀ (answers : List (String × Answer)) (s : Repo) (x : Rev),
    x ∈ (pullPeers same answers s).2.history → x ∈ s.history
  | [], _, _, h => h
  | (peer, a) :: rest, s, x, h => by
    have h1 : ∀ y, y ∈ (pullSingle same peer a s).2.history → y ∈ s.history := by
      intro y hy
      simp only [pullSingle] at hy
      split at hy
      · exact hy
      split at hy
      · exact hy
      · rename_i remote err _
        have := writeRemote_history same ((s.history.filter (fun r => decide (r.server = peer))).map Rev.uuid) remote
          (dropUnknown peer remote s)
        split at hy
        · rename_i heq; rw [heq] at this; exact drop_sub _ _ _ (this ▸ hy)
        · rename_i heq; rw [heq] at this; exact drop_sub _ _ _ (this ▸ hy)
    simp only [pullPeers] at h
    split at h
    · rename_i heq; rw [heq] at h1; exact h1 x h
    · rename_i s' heq
      rw [heq] at h1
      have h2 := pullPeers_sub same rest s' x
      split at h
      · rename_i heq2; rw [heq2] at h2; exact h1 x (h2 h)
      · rename_i heq2; rw [heq2] at h2; exact h1 x (h2 h)

/-- **C93 (partial)** After a run that has left the backup to a peer, the callback is told only revisions that were in the
directory already when the run was planned, with the tags they had then: never the backup that the peer has just made (if no request makes the daemon read the directory
meanwhile, see `C93_skipped_queried_partial`). -/
theorem C93_skipped_partial (same : Rev → Rev → Bool) (answers : List (String × Answer)) (s s' : Repo) (hn : Named s.files)
    (ho : skipped same answers s = some s') (r : Rev) (hr : r ∈ told s') : onDisk s.files r.uuid = some r := by
  unfold skipped at ho
  split at ho
  · cases ho
  · rename_i heq
    cases ho
    have h1 := pullPeers_sub same answers (removeDeadPeers (answers.map Prod.fst) s.scan) r
      (by have : (pull same answers s.scan).2 = s' := by rw [heq]
          show r ∈ (pull same answers s.scan).2.history
          rw [this]; exact hr)
    exact (Repo.scan_mem hn r).1 (drop_sub _ _ _ h1)

/-- **C93 is false of the code** for a run that leaves the backup to a peer: the metadata of the new backup is in the directory
when the callback runs, but the callback is not told of it. -/
theorem C93_false_skipped : ∃ (s s' : Repo) (r : Rev), Named s.files ∧
    skipped sameRev [("peer", .revs [adopt "peer" r])] s = some s' ∧ onDisk s'.files r.uuid = some (adopt "peer" r) ∧
    r.clean = true ∧ ∀ x ∈ told s', x.uuid ≠ r.uuid := by
  refine ⟨exRepo [exRev "a" {"daily"} ∅ ""], (pull sameRev [("peer", .revs [adopt "peer" (exRev "b" {"daily"} ∅ "")])]
    (exRepo [exRev "a" {"daily"} ∅ ""]).scan).2, exRev "b" {"daily"} ∅ "", ?_, ?_, ?_, ?_, ?_⟩
  · refine ⟨by decide +kernel, ?_⟩
    intro n f h _
    simp only [Sync.exRepo, Sync.exRev, List.map_cons, List.map_nil, List.mem_cons, Prod.mk.injEq, List.not_mem_nil, or_false] at h
    obtain ⟨rfl, rfl⟩ := h
    rfl
  · have h : (pull sameRev [("peer", .revs [adopt "peer" (exRev "b" {"daily"} ∅ "")])]
        (exRepo [exRev "a" {"daily"} ∅ ""]).scan).1 = .ok 0 := by decide +kernel
    unfold skipped
    generalize hg : pull sameRev [("peer", .revs [adopt "peer" (exRev "b" {"daily"} ∅ "")])]
        (exRepo [exRev "a" {"daily"} ∅ ""]).scan = g at *
    obtain ⟨g1, g2⟩ := g
    cases h
    rfl
  · decide +kernel
  · decide +kernel
  · decide +kernel

/-- Such runs: with a backup of its own, a revision of a peer that is pulled then is among those told. -/
example : ((own sameRev [("peer", .revs [adopt "peer" (exRev "b" {"manual:x"} ∅ "")])] [] (fun _ => none) (fun _ => 0) "job" []
    (exRepo [exRev "a" {"manual:y"} ∅ ""])).map (fun s' => (told s').map Rev.uuid)) = some ["a", "b"] := by
  decide +kernel

/-- C93_own_backup_partial, C93_skipped_partial for that repository. -/
example (s' : Repo) (h : own sameRev [("peer", .revs [adopt "peer" (exRev "b" {"manual:x"} ∅ "")])] [] (fun _ => none) (fun _ => 0) "job" []
    (exRepo [exRev "a" {"manual:y"} ∅ ""]) = some s') :=
  C93_own_backup_partial _ _ _ _ _ _ _ _ s' (exRepo_named (by decide)) h
example (s' : Repo) (r : Rev) (h : skipped sameRev [("peer", .revs [adopt "peer" (exRev "b" {"manual:x"} ∅ "")])]
    (exRepo [exRev "a" {"manual:y"} ∅ ""]) = some s') (hr : r ∈ told s') :=
  C93_skipped_partial _ _ _ s' (exRepo_named (by decide)) h r hr

end Verif.Callback
