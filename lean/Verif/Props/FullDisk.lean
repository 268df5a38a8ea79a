import Verif.Proofs.FullDisk
import Verif.Props.Lasting
import Verif.Props.Backup
import Verif.Props.BackupRuns
import Verif.Props.Recovery
import Verif.Props.Foreground
/-!
# Property C137: a disk that is full or fails while a backup writes
-/
namespace Verif.FullDisk
open Verif Verif.Chunked Verif.Spec Verif.Rbd Verif.Repo Verif.Files Verif.Diff Verif.Backup

/-- What may still happen after a backup was stopped: old snapshots are removed, or the new revision is. -/
inductive After (uuid : String) (k : Sys) : Sys → Prop
  | nothing : After uuid k k
  | snaps (keep : String → Bool) : After uuid k { k with ceph := { k.ceph with snaps := k.ceph.snaps.filter (fun x => keep x.1) } }
  | drop (r : Rev) (h : r.uuid = uuid) : After uuid k { k with src := { k.src with repo := k.src.repo.drop r } }

theorem distrust_cases (d : Drive) (l : List Rev) : ∀ (n : Nat) (s : Repo), (∀ r ∈ l, r.server = "") →
    ((∀ n, d n = .done) → (distrust d n s l) = s.distrust l) ∧
    (distrust d n s l = s.distrust l ∨
      (distrust d n s l).1 = .error .os ∧ ∃ k, (distrust d n s l).2 = (s.distrust (l.take k)).2) := by
  induction l with
  | nil => intro n s _; exact ⟨fun _ => rfl, .inl rfl⟩
  | cons r l ih =>
    intro n s h
    have hr : ¬ r.server ≠ "" := by simpa using h r List.mem_cons_self
    obtain ⟨i1, i2⟩ := ih (n + 1) (s.store { r with trust := .distrusted }) (fun x hx => h x (List.mem_cons_of_mem _ hx))
    simp only [distrust, Repo.distrust, if_neg hr]
    by_cases hd : d n = .done
    · simp only [if_pos hd]
      refine ⟨i1, ?_⟩
      rcases i2 with i2 | ⟨q1, k, q2⟩
      · exact .inl i2
      · refine .inr ⟨q1, k + 1, ?_⟩
        rw [q2, List.take_succ_cons]
        simp only [Repo.distrust, if_neg hr]
    · simp only [if_neg hd]
      exact ⟨fun h => absurd (h n) hd, .inr ⟨trivial, 0, rfl⟩⟩

theorem verify_cases (env : Env) (d : Drive) (n : Nat) (order : List Hash → List Hash) (s : Src) (r : Rev) :
    ((∀ n, d n = .done) → verify env d n order s r = Src.verify env order s r) ∧
    (verify env d n order s r = Src.verify env order s r ∨ verify env d n order s r = (.error .os, s)) := by
  have hm : ((∀ n, d n = .done) → verifyMark env d n order s r = Src.verifyMark env order s r) ∧
      (verifyMark env d n order s r = Src.verifyMark env order s r ∨ verifyMark env d n order s r = (.error .os, s)) := by
    simp only [verifyMark, Src.verifyMark]
    cases verifyCandidates order s r with
    | error e => exact ⟨fun _ => rfl, .inl rfl⟩
    | ok cand =>
      dsimp only
      cases firstBad env s.w cand with
      | some h => exact ⟨fun _ => rfl, .inl rfl⟩
      | none =>
        dsimp only
        split
        · exact ⟨fun _ => rfl, .inl rfl⟩
        · by_cases hd : d n = .done
          · rw [if_pos hd]; exact ⟨fun _ => rfl, .inl rfl⟩
          · rw [if_neg hd]; exact ⟨fun h => absurd (h n) hd, .inr rfl⟩
  have key : verifyMark env d n order s r = Src.verifyMark env order s r → verify env d n order s r = Src.verify env order s r := by
    intro h
    simp only [verify, Src.verify]
    rw [h]
    generalize Src.verifyMark env order s r = y
    obtain ⟨y1, y2⟩ := y
    cases y1 <;> rfl
  refine ⟨fun h => key (hm.1 h), ?_⟩
  rcases hm.2 with h | h
  · exact .inl (key h)
  · right
    simp only [verify]
    rw [h]

theorem verifyDistrusted_cases (env : Env) (d : Drive) (n : Nat) (o : Rbd) (s : Src) :
    ((∀ n, d n = .done) → verifyDistrusted env d n o s = Backup.verifyDistrusted env o s) ∧
    (verifyDistrusted env d n o s = Backup.verifyDistrusted env o s ∨
      verifyDistrusted env d n o s = (.error .os, { s with repo := s.repo.scan })) := by
  simp only [verifyDistrusted, Backup.verifyDistrusted]
  cases (s.repo.scan.getHistory true true).reverse.find? (fun r => decide (r.trust = .distrusted)) with
  | none => exact ⟨fun _ => rfl, .inl rfl⟩
  | some r => exact verify_cases ..

/-- The end of the backup: as on a disk with room, or it fails when the completed revision is written, or later. -/
theorem conclude_cases (env : Env) (d : Drive) (n : Nat) (o : Rbd) (r : Rev) (v : Bool) (s : Src) :
    ((∀ n, d n = .done) → conclude env d n o r v s = Backup.conclude env o r v s) ∧
    (conclude env d n o r v s = Backup.conclude env o r v s ∨
      v = true ∧ conclude env d n o r v s = (.error .os, s) ∨
      conclude env d n o r v s = (.error .os, { s with repo :=
        (if v then s.repo.store (finished o r) else s.repo.remove r).scan })) := by
  simp only [conclude, Backup.conclude]
  by_cases h : v = true ∧ d n ≠ .done
  · rw [if_pos h]
    exact ⟨fun hd => absurd (hd n) h.2, .inr (.inl ⟨h.1, rfl⟩)⟩
  · rw [if_neg h]
    cases v with
    | true =>
      obtain ⟨c1, c2⟩ := verifyDistrusted_cases env d (n + 1) o { s with repo := s.repo.store (finished o r) }
      have key : verifyDistrusted env d (n + 1) o { s with repo := s.repo.store (finished o r) } =
          Backup.verifyDistrusted env o { s with repo := s.repo.store (finished o r) } →
          (match verifyDistrusted env d (n + 1) o { s with repo := s.repo.store (finished o r) } with
            | (.error e, s) => ((.error e, s) : Except PyErr Bool × Src)
            | (.ok (), s) => (.ok true, s)) =
          match Backup.verifyDistrusted env o { s with repo := s.repo.store (finished o r) } with
            | (.error e, s) => (.error e, s)
            | (.ok (), s) => (.ok true, s) := by
        intro hh
        rw [hh]
      simp only [if_true]
      refine ⟨fun hd => key (c1 hd), ?_⟩
      rcases c2 with c2 | c2
      · exact .inl (key c2)
      · rw [c2]; exact .inr (.inr rfl)
    | false =>
      obtain ⟨c1, c2⟩ := verifyDistrusted_cases env d n o { s with repo := s.repo.remove r }
      have key : verifyDistrusted env d n o { s with repo := s.repo.remove r } =
          Backup.verifyDistrusted env o { s with repo := s.repo.remove r } →
          (match verifyDistrusted env d n o { s with repo := s.repo.remove r } with
            | (.error e, s) => ((.error e, s) : Except PyErr Bool × Src)
            | (.ok (), s) => (.ok false, s)) =
          match Backup.verifyDistrusted env o { s with repo := s.repo.remove r } with
            | (.error e, s) => (.error e, s)
            | (.ok (), s) => (.ok false, s) := by
        intro hh
        rw [hh]
      simp only [Bool.false_eq_true, if_false]
      refine ⟨fun hd => key (c1 hd), ?_⟩
      rcases c2 with c2 | c2
      · exact .inl (key c2)
      · rw [c2]; exact .inr (.inr rfl)

/-- The same for the rest of the backup. -/
theorem afterSnapshot_cases {env : Env} (d : Drive) (n : Nat) (o : Rbd) (r : Rev) (res : Except PyErr Bool) (s : Src)
    (hr : r.server = "") :
    ((∀ n, d n = .done) → afterSnapshot env d n o r res s = Backup.afterSnapshot env o r res s) ∧
    (afterSnapshot env d n o r res s = Backup.afterSnapshot env o r res s ∨
      (∃ e, (afterSnapshot env d n o r res s).1 = .error e) ∧
      ((∃ k, (afterSnapshot env d n o r res s).2 = { s with repo := (s.repo.distrust (s.repo.localHistory.take k)).2 }) ∨
       (∃ k, (afterSnapshot env d n o r res s).2 =
          { s with repo := ((s.repo.distrust (s.repo.localHistory.take k)).2.drop r).scan }) ∨
       (res = .ok true ∧ (afterSnapshot env d n o r res s).2 = { s with repo := (s.repo.store (finished o r)).scan }))) := by
  have hrm : ∀ s : Repo, s.remove r = s.drop r := by
    intro s
    simp [Repo.remove, hr]
  cases res with
  | ok v =>
    obtain ⟨c1, c2⟩ := conclude_cases env d n o r v s
    refine ⟨c1, ?_⟩
    rcases c2 with c2 | ⟨rfl, c2⟩ | c2
    · exact .inl c2
    · exact .inr ⟨⟨.os, congrArg Prod.fst c2⟩, .inl ⟨0, congrArg Prod.snd c2⟩⟩
    · refine .inr ⟨⟨.os, congrArg Prod.fst c2⟩, .inr ?_⟩
      cases v with
      | true => exact .inr ⟨rfl, congrArg Prod.snd c2⟩
      | false =>
        refine .inl ⟨0, (congrArg Prod.snd c2).trans ?_⟩
        simp only [Bool.false_eq_true, if_false, hrm]
        rfl
  | error e =>
    cases e with
    | backend =>
      obtain ⟨d1, d2⟩ := distrust_cases d s.repo.localHistory n s.repo (fun x hx => (mem_localHistory.1 hx).2)
      have hstop : (distrust d n s.repo s.repo.localHistory).1 = .error .os → ∀ k,
          (distrust d n s.repo s.repo.localHistory).2 = (s.repo.distrust (s.repo.localHistory.take k)).2 →
          afterSnapshot env d n o r (.error .backend) s =
          (.error .os, { s with repo := (s.repo.distrust (s.repo.localHistory.take k)).2 }) := by
        intro h1 k h2
        simp only [afterSnapshot]
        generalize distrust d n s.repo s.repo.localHistory = y at *
        obtain ⟨y1, y2⟩ := y
        dsimp only at h1 h2
        subst h1 h2
        rfl
      have hgo : distrust d n s.repo s.repo.localHistory = s.repo.distrust s.repo.localHistory →
          ((∀ n, d n = .done) → afterSnapshot env d n o r (.error .backend) s =
            Backup.afterSnapshot env o r (.error .backend) s) ∧
          (afterSnapshot env d n o r (.error .backend) s = Backup.afterSnapshot env o r (.error .backend) s ∨
           afterSnapshot env d n o r (.error .backend) s =
            (.error .os, { s with repo := ((s.repo.distrust (s.repo.localHistory.take s.repo.localHistory.length)).2.drop r).scan })) := by
        intro h1
        simp only [afterSnapshot, Backup.afterSnapshot]
        rw [h1, List.take_length]
        generalize s.repo.distrust s.repo.localHistory = y
        obtain ⟨y1, y2⟩ := y
        cases y1 with
        | error e => exact ⟨fun _ => rfl, .inl rfl⟩
        | ok u =>
          obtain ⟨c1, c2⟩ := conclude_cases env d (n + s.repo.localHistory.length) o r false { s with repo := y2 }
          refine ⟨c1, ?_⟩
          rcases c2 with c2 | ⟨h, _⟩ | c2
          · exact .inl c2
          · cases h
          · refine .inr (c2.trans ?_)
            simp only [Bool.false_eq_true, if_false, hrm]
      refine ⟨fun h => (hgo (d1 h)).1 h, ?_⟩
      rcases d2 with d2 | ⟨q1, k, q2⟩
      · rcases (hgo d2).2 with h | h
        · exact .inl h
        · rw [h]; exact .inr ⟨⟨_, rfl⟩, .inr (.inl ⟨_, rfl⟩)⟩
      · rw [hstop q1 k q2]; exact .inr ⟨⟨_, rfl⟩, .inl ⟨k, rfl⟩⟩
    | _ => exact ⟨fun _ => rfl, .inl rfl⟩

theorem find_prepared {env : Env} {s : Sys} (h : Good env s) {uuid : String} (hu : Fresh s uuid) (ts : Int)
    (tags : Finset String) : Backup.findByUuid (s.prepared uuid ts tags).src.repo uuid = .ok (newRev uuid ts tags) := by
  have hst := h.prepared hu ts tags
  unfold Backup.findByUuid
  cases hf : (s.prepared uuid ts tags).src.repo.history.find? (fun r => decide (r.uuid = uuid)) with
  | none =>
    have := List.find?_eq_none.1 hf _ hst.rev
    simp [newRev] at this
  | some r =>
    have h1 := List.find?_some hf
    simp only [decide_eq_true_eq] at h1
    have h2 := eq_of_uuid hst.mem.sync.nodup (List.mem_of_find?_eq_some hf) hst.rev (by rw [h1]; rfl)
    rw [h2]

/-- The exit code of a backup and what it leaves. -/
def coded (x : Except PyErr Bool × Sys) : Nat × Sys :=
  match x with
  | (.error _, s) => (1, s)
  | (.ok true, s) => (0, s)
  | (.ok false, s) => (1, s)

theorem runBackup_coded {env : Env} {s : Sys} (h : Good env s) {uuid : String} (hu : Fresh s uuid) (d : Drive) (af : Bool)
    (o : Rbd) (ts : Int) (tags : Finset String) :
    runBackup env .done d af o uuid ts tags s.connect =
      coded (backup env d af o (newRev uuid ts tags) (s.prepared uuid ts tags)) ∧
    Backup.runBackup env af o uuid ts tags s.connect =
      coded (Backup.backup env af o (newRev uuid ts tags) (s.prepared uuid ts tags)) := by
  have hfind := find_prepared h hu ts tags
  constructor
  · show mainBackup env d af o uuid _ = _
    unfold mainBackup
    change (match Backup.findByUuid (s.prepared uuid ts tags).src.repo uuid with
      | .error _ => (1, s.prepared uuid ts tags)
      | .ok r => match backup env d af o r (s.prepared uuid ts tags) with
        | (.error _, s) => (1, s)
        | (.ok true, s) => (0, s)
        | (.ok false, s) => (1, s)) = _
    rw [hfind]
    rfl
  · show Backup.mainBackup env af o uuid _ = _
    unfold Backup.mainBackup
    change (match Backup.findByUuid (s.prepared uuid ts tags).src.repo uuid with
      | .error _ => (1, s.prepared uuid ts tags)
      | .ok r => match Backup.backup env af o r (s.prepared uuid ts tags) with
        | (.error _, s) => (1, s)
        | (.ok true, s) => (0, s)
        | (.ok false, s) => (1, s)) = _
    rw [hfind]
    rfl

theorem cleanUpTo_all (s : Repo) : cleanUpTo s.localHistory.length s = s.clean := by
  simp only [cleanUpTo, Repo.clean, List.take_length]

/-- What the end of a backup leaves is what a killed backup leaves, or the same as on a disk with room. -/
theorem backup_cases {env : Env} {s : Sys} (h : Good env s) {uuid : String} (hu : Fresh s uuid) (d : Drive) (af : Bool)
    (o : Rbd) (ts : Int) (tags : Finset String) :
    ((∀ n, d n = .done) → backup env d af o (newRev uuid ts tags) (s.prepared uuid ts tags) =
      Backup.backup env af o (newRev uuid ts tags) (s.prepared uuid ts tags)) ∧
    (backup env d af o (newRev uuid ts tags) (s.prepared uuid ts tags) =
      Backup.backup env af o (newRev uuid ts tags) (s.prepared uuid ts tags) ∨
     (∃ e, (backup env d af o (newRev uuid ts tags) (s.prepared uuid ts tags)).1 = .error e) ∧
     ∃ k s', Killed env af o uuid ts tags s k ∧ After uuid k s' ∧
       s'.connect = (backup env d af o (newRev uuid ts tags) (s.prepared uuid ts tags)).2.connect) := by
  have hst := h.prepared hu ts tags
  have hw : ((s.prepared uuid ts tags).snapshot (newRev uuid ts tags)).src.w.force = false := rfl
  have hshort : Short env ((s.prepared uuid ts tags).snapshot (newRev uuid ts tags)).src.w := by
    intro x b hx _
    obtain ⟨b', e1, _, _, e4⟩ := hst.mem.disk.wok.good x _ hx
    cases e1
    exact e4
  obtain ⟨b1, b2, b3⟩ := backupBody_ended (d := d) af o (newRev uuid ts tags) (s.prepared uuid ts tags).ceph.image _ hw hshort
  simp only [backup, Backup.backup]
  split
  · exact ⟨fun _ => rfl, .inl rfl⟩
  · split
    · exact ⟨fun _ => rfl, .inl rfl⟩
    · cases hf : (backupBody env d af o (newRev uuid ts tags) (s.prepared uuid ts tags).ceph.image
          ((s.prepared uuid ts tags).snapshot (newRev uuid ts tags))).2.failed with
      | true =>
        refine ⟨fun hd => (by rw [b3 hd] at hf; cases hf), .inr ?_⟩
        obtain ⟨left, ⟨e, he, hx⟩, parent, hp⟩ := b2 hf
        generalize backupBody env d af o (newRev uuid ts tags) (s.prepared uuid ts tags).ceph.image
          ((s.prepared uuid ts tags).snapshot (newRev uuid ts tags)) = x at *
        obtain ⟨x1, x2⟩ := x
        dsimp only at left hx hf
        subst hx
        have hres : ∃ e', e' ≠ .backend ∧ exitWith (.error e : Except PyErr Bool)
            (deleteOldSnapshots o af (s.prepared uuid ts tags).src.repo
              ((s.prepared uuid ts tags).snapshot (newRev uuid ts tags)).ceph.snaps).1 = .error e' := by
          simp only [deleteOldSnapshots]
          split
          · exact ⟨.unexpected, by simp, rfl⟩
          · exact ⟨e, he, rfl⟩
        obtain ⟨e', he', hres⟩ := hres
        have hafter : ∀ src, afterSnapshot env d x2.n o (newRev uuid ts tags) (.error e') src = (.error e', src) := by
          intro src
          cases e' <;> first | rfl | exact absurd rfl he'
        dsimp only
        rw [hres, hafter]
        refine ⟨⟨e', rfl⟩, _, _, .writing parent x2.w.fresh hp
          ⟨left.old, left.new, left.metas, left.log, left.small, rfl, rfl⟩,
          .snaps (fun n => o.snapLsFails || !(isOld (keepSnapshot af (s.prepared uuid ts tags).src.repo) n && !o.snapRmFails n)), ?_⟩
        simp only [deleteOldSnapshots]
        cases o.snapLsFails with
        | true =>
          simp only [Bool.true_or, List.filter_true, if_true]
          rfl
        | false =>
          simp only [Bool.false_or, Bool.false_eq_true, if_false]
          rfl
      | false =>
        have hb := b1 hf
        generalize backupBody env d af o (newRev uuid ts tags) (s.prepared uuid ts tags).ceph.image
          ((s.prepared uuid ts tags).snapshot (newRev uuid ts tags)) = x at *
        obtain ⟨x1, x2⟩ := x
        have hb1 : x1 = (Backup.backupBody env af o (newRev uuid ts tags) s.ceph.image
          ((s.prepared uuid ts tags).snapshot (newRev uuid ts tags))).1 := congrArg Prod.fst hb
        have hb2 : x2.w = (Backup.backupBody env af o (newRev uuid ts tags) s.ceph.image
          ((s.prepared uuid ts tags).snapshot (newRev uuid ts tags))).2 := congrArg Prod.snd hb
        rw [← hb]
        dsimp only
        obtain ⟨a1, a2⟩ := afterSnapshot_cases d x2.n o (newRev uuid ts tags)
          (exitWith x1 (deleteOldSnapshots o af (s.prepared uuid ts tags).src.repo
            ((s.prepared uuid ts tags).snapshot (newRev uuid ts tags)).ceph.snaps).1)
          (env := env) { (s.prepared uuid ts tags).src with w := x2.w } rfl
        refine ⟨fun hd => by rw [a1 hd], ?_⟩
        have hleft : ∀ k, Killed env af o uuid ts tags s
            { src := { repo := ((s.prepared uuid ts tags).src.repo.distrust
                        ((s.prepared uuid ts tags).src.repo.localHistory.take k)).2, w := x2.w },
              ceph := { ((s.prepared uuid ts tags).snapshot (newRev uuid ts tags)).ceph with
                        snaps := (deleteOldSnapshots o af (s.prepared uuid ts tags).src.repo
                          ((s.prepared uuid ts tags).snapshot (newRev uuid ts tags)).ceph.snaps).2 } } := by
          intro k
          have := Killed.leaving (env := env) (af := af) (o := o) (uuid := uuid) (ts := ts) (tags := tags) (s := s) o k
          rw [← hb2] at this
          exact this
        rcases a2 with a2 | ⟨⟨e, he⟩, a2⟩
        · rw [a2]; exact .inl rfl
        · refine .inr ⟨⟨e, he⟩, ?_⟩
          rcases a2 with ⟨k, hk⟩ | ⟨k, hk⟩ | ⟨hv, hk⟩
          · exact ⟨_, _, hleft k, .nothing, by rw [hk]⟩
          · refine ⟨_, _, hleft k, .drop (newRev uuid ts tags) rfl, ?_⟩
            rw [hk]
            rfl
          · have hx1 : x1 = .ok true := by
              simp only [deleteOldSnapshots] at hv
              split at hv
              · cases hv
              · exact hv
            have := Killed.completed (env := env) (af := af) (o := o) (uuid := uuid) (ts := ts) (tags := tags) (s := s) o
              (by rw [← hb1]; exact hx1)
            rw [← hb2] at this
            refine ⟨_, _, this, .nothing, ?_⟩
            rw [hk]
            rfl

/-- The run of a backup on a disk that may be full: the same as on a disk with room, or the exit code 1 and what a killed
backup leaves. -/
theorem runBackup_cases {env : Env} {s : Sys} (h : Good env s) {uuid : String} (hu : Fresh s uuid) (first : Write) (d : Drive)
    (af : Bool) (o : Rbd) (ts : Int) (tags : Finset String) :
    (first = .done → (∀ n, d n = .done) → runBackup env first d af o uuid ts tags s.connect =
      Backup.runBackup env af o uuid ts tags s.connect) ∧
    (runBackup env first d af o uuid ts tags s.connect = Backup.runBackup env af o uuid ts tags s.connect ∨
     (runBackup env first d af o uuid ts tags s.connect).1 = 1 ∧
     ∃ k s', Killed env af o uuid ts tags s k ∧ After uuid k s' ∧
       s'.connect = (runBackup env first d af o uuid ts tags s.connect).2.connect) := by
  by_cases hf : first = .done
  · subst hf
    obtain ⟨c1, c2⟩ := runBackup_coded h hu d af o ts tags
    obtain ⟨b1, b2⟩ := backup_cases h hu d af o ts tags
    rw [c1, c2]
    refine ⟨fun _ hd => by rw [b1 hd], ?_⟩
    rcases b2 with b2 | ⟨⟨e, he⟩, k, s', hk, ha, hc⟩
    · rw [b2]; exact .inl rfl
    · generalize backup env d af o (newRev uuid ts tags) (s.prepared uuid ts tags) = x at *
      obtain ⟨x1, x2⟩ := x
      dsimp only at he
      subst he
      exact .inr ⟨rfl, k, s', hk, ha, hc⟩
  · have hr : runBackup env first d af o uuid ts tags s.connect =
        (1, { s.connect with src := { s.connect.src with repo := s.connect.src.repo.clean } }) := by
      simp only [runBackup, if_neg hf]
    refine ⟨fun h => absurd h hf, .inr ?_⟩
    rw [hr]
    refine ⟨rfl, _, _, .cleaning s.connect.src.repo.localHistory.length, .nothing, ?_⟩
    rw [cleanUpTo_all]
    rfl

/-- What `After` describes are events of a history. -/
theorem After.steps {env : Env} {uuid : String} {s0 k s' : Sys} (hk : Steps env s0 k) (h : After uuid k s') : Steps env s0 s' := by
  cases h with
  | nothing => exact hk
  | snaps keep => exact .cons hk (.snapsGone _ _)
  | drop r _ => exact .cons hk (.drop _ _)

theorem After.spares {env : Env} {u uuid : String} (hne : u ≠ uuid) {s0 k s' : Sys} (hk : SparesAll env u s0 k)
    (h : After uuid k s') : SparesAll env u s0 s' := by
  cases h with
  | nothing => exact hk
  | snaps keep => exact .cons hk (.snapsGone _ _)
  | drop r hr => exact .cons hk (.drop _ _ (by rw [hr]; exact fun h => hne h.symm))

theorem After.taken {uuid : String} {k s' : Sys} (h : After uuid k s') : s'.ceph.taken = k.ceph.taken := by
  cases h <;> rfl

theorem After.onDisk {uuid u : String} {k s' : Sys} (h : After uuid k s') {r : Rev} (hr : onDisk s'.src.repo.files u = some r) :
    onDisk k.src.repo.files u = some r := by
  cases h with
  | nothing => exact hr
  | snaps keep => exact hr
  | drop x _ =>
    rw [onDisk_eq_some] at hr ⊢
    change (k.src.repo.files.erase x.uuid).get? u = _ at hr
    by_cases he : u = x.uuid
    · subst he; rw [Dict.get?_erase_self] at hr; cases hr
    · rwa [Dict.get?_erase_ne _ he] at hr

theorem files_of_connect {a b : Sys} (h : a.connect = b.connect) : a.src.repo.files = b.src.repo.files := by
  have := congrArg (fun x => x.src.repo.files) h
  exact this

theorem ceph_of_connect {a b : Sys} (h : a.connect = b.connect) : a.ceph = b.ceph := by
  have := congrArg (fun x => x.ceph) h
  exact this

theorem log_of_connect {a b : Sys} (h : a.connect = b.connect) : a.src.w.log = b.src.w.log := by
  have := congrArg (fun x => x.src.w.log) h
  exact this

theorem metas_of_connect {a b : Sys} (h : a.connect = b.connect) : a.src.w.metas = b.src.w.metas := by
  have := congrArg (fun x => x.src.w.metas) h
  exact this

theorem fresh_of_connect {a b : Sys} {u : String} (h : a.connect = b.connect) (hf : Fresh b u) : Fresh a u :=
  ⟨by rw [files_of_connect h]; exact hf.file, by rw [metas_of_connect h]; exact hf.image, by rw [ceph_of_connect h]; exact hf.snap⟩

/-- The hypotheses under which a backup is considered: the history of the system before it, a fresh uuid, and an `rbd` whose output
may end early but is not wrong. -/
structure Before (env : Env) (s0 s : Sys) (o : Rbd) (uuid : String) : Prop where
  init : Initial s0
  steps : Steps env s0 s
  fresh : Fresh s uuid
  faithful : Faithful o s.ceph.snaps uuid s.ceph.image

theorem runBackup_good {env : Env} {s0 s : Sys} {o : Rbd} {uuid : String} (h : Before env s0 s o uuid)
    (hcoll : CollFree env.H s.src.w.log) : Good env s :=
  (Good.initial h.init).steps hcoll h.steps (fun _ h => h)

/-- **C137, what is left** A backup during which any writes fail ends like the same backup on a disk with room, or with the exit
code 1.  Then the directory, the snapshots and the image are as after some history of successful, failed and *killed* backups: every
theorem about `Steps` holds of it. -/
theorem C137_leaves (env : Env) (s0 s : Sys) (first : Write) (d : Drive) (af : Bool) (o : Rbd) (uuid : String) (ts : Int)
    (tags : Finset String) (h : Before env s0 s o uuid) (hcoll : CollFree env.H s.src.w.log) :
    (runBackup env first d af o uuid ts tags s.connect = Backup.runBackup env af o uuid ts tags s.connect ∨
      (runBackup env first d af o uuid ts tags s.connect).1 = 1) ∧
    ∃ s', Steps env s0 s' ∧ s'.connect = (runBackup env first d af o uuid ts tags s.connect).2.connect := by
  rcases (runBackup_cases (runBackup_good h hcoll) h.fresh first d af o ts tags).2 with e | ⟨e, k, s', hk, ha, hc⟩
  · exact ⟨.inl e, _, .cons h.steps (.backup s af o uuid ts tags h.fresh h.faithful), by rw [e]⟩
  · exact ⟨.inr e, s', ha.steps (.cons h.steps (.killed s k af o uuid ts tags h.fresh h.faithful hk)), hc⟩

/-- **C137, room** When no write fails, this is the backup of `Model/Backup.lean`, about which the other properties are. -/
theorem C137_room (env : Env) (s0 s : Sys) (d : Drive) (hd : ∀ n, d n = .done) (af : Bool) (o : Rbd) (uuid : String) (ts : Int)
    (tags : Finset String) (h : Before env s0 s o uuid) (hcoll : CollFree env.H s.src.w.log) :
    runBackup env .done d af o uuid ts tags s.connect = Backup.runBackup env af o uuid ts tags s.connect :=
  (runBackup_cases (runBackup_good h hcoll) h.fresh .done d af o ts tags).1 rfl hd

/-- **C137, no false success** The exit code 0 means that the new revision is complete and restores to the image, whatever failed
meanwhile. -/
theorem C137_zero (env : Env) (s0 s : Sys) (first : Write) (d : Drive) (af : Bool) (o : Rbd) (uuid : String) (ts : Int)
    (tags : Finset String) (h : Before env s0 s o uuid) (hcoll' : CollFree env.H s.src.w.log)
    (hcoll : CollFree env.H (runBackup env first d af o uuid ts tags s.connect).2.src.w.log)
    (h0 : (runBackup env first d af o uuid ts tags s.connect).1 = 0) :
    ∃ x, onDisk (runBackup env first d af o uuid ts tags s.connect).2.src.repo.files uuid = some x ∧ x.clean = true ∧
      ∀ target, restore env (runBackup env first d af o uuid ts tags s.connect).2.connect.src.w x target =
        (.ok (), some s.ceph.image) := by
  have hg := runBackup_good h hcoll'
  rcases (runBackup_cases hg h.fresh first d af o ts tags).2 with e | ⟨e, _⟩
  · rw [e] at h0 hcoll ⊢
    have hn : Named s.connect.src.repo.files := hg.disk.named
    obtain ⟨x, x1, x2⟩ := C16_success_complete_partial env af o uuid ts tags s.connect hn h0
    refine ⟨x, x1, x2, ?_⟩
    obtain ⟨_, _, _, _, hxs, _⟩ := C81_record env af o uuid ts tags s.connect hn x x1 x2
    have hst : Steps env s0 (Backup.runBackup env af o uuid ts tags s.connect).2 :=
      .cons h.steps (.backup s af o uuid ts tags h.fresh h.faithful)
    have hxu : x.uuid = uuid := onDisk_uuid (hg.step hcoll (.backup s af o uuid ts tags h.fresh h.faithful) (fun _ h => h)).disk.named x1
    obtain ⟨c, c1, c2, _⟩ := C13_restores_snapshot env s0 _ h.init hst hcoll x (by rw [hxu]; exact x1) hxs x2
    rw [hxu, Commands.success_taken env af o uuid ts tags s hn h0] at c1
    cases c1
    exact c2
  · rw [h0] at e; cases e

/-- **C137, a complete revision is right** Also after a failed write: if the new revision is complete, it restores to the image. -/
theorem C137_complete (env : Env) (s0 s : Sys) (first : Write) (d : Drive) (af : Bool) (o : Rbd) (uuid : String) (ts : Int)
    (tags : Finset String) (h : Before env s0 s o uuid) (hcoll' : CollFree env.H s.src.w.log)
    (hcoll : CollFree env.H (runBackup env first d af o uuid ts tags s.connect).2.src.w.log) (x : Rev)
    (hx : onDisk (runBackup env first d af o uuid ts tags s.connect).2.src.repo.files uuid = some x) (hc : x.clean = true)
    (hl : x.server = "") (target : Option Bytes) :
    restore env (runBackup env first d af o uuid ts tags s.connect).2.connect.src.w x target = (.ok (), some s.ceph.image) := by
  have hg := runBackup_good h hcoll'
  rcases (runBackup_cases hg h.fresh first d af o ts tags).2 with e | ⟨_, k, s', hk, ha, hcn⟩
  · rw [e] at hx hcoll ⊢
    have hst : Steps env s0 (Backup.runBackup env af o uuid ts tags s.connect).2 :=
      .cons h.steps (.backup s af o uuid ts tags h.fresh h.faithful)
    have hxu : x.uuid = uuid := onDisk_uuid (hg.step hcoll (.backup s af o uuid ts tags h.fresh h.faithful) (fun _ h => h)).disk.named hx
    obtain ⟨c, c1, c2, _⟩ := C13_restores_snapshot env s0 _ h.init hst hcoll x (by rw [hxu]; exact hx) hl hc
    rw [hxu, Recovery.runBackup_taken hg.disk.named af o uuid ts tags h.fresh x hx hc] at c1
    cases c1
    exact c2 target
  · rw [← hcn]
    rw [← files_of_connect hcn] at hx
    rw [← log_of_connect hcn] at hcoll
    have hst : Steps env s0 s' := ha.steps (.cons h.steps (.killed s k af o uuid ts tags h.fresh h.faithful hk))
    have hg' : Good env s' := (Good.initial h.init).steps hcoll hst (fun _ h => h)
    have hxu : x.uuid = uuid := onDisk_uuid hg'.disk.named hx
    obtain ⟨c, c1, c2, _⟩ := C13_restores_snapshot env s0 _ h.init hst hcoll x (by rw [hxu]; exact hx) hl hc
    rw [hxu, ha.taken, Recovery.killed_taken hg.disk.named h.fresh hk x (ha.onDisk hx) hc] at c1
    cases c1
    exact c2 target

/-- **C137, nothing else is damaged** Every other complete revision is still there, complete and restores to the same data. -/
theorem C137_others (env : Env) (s0 s : Sys) (first : Write) (d : Drive) (af : Bool) (o : Rbd) (ho : ∀ l, (o.order l).Perm l)
    (uuid : String) (ts : Int) (tags : Finset String) (h : Before env s0 s o uuid) (hcoll' : CollFree env.H s.src.w.log)
    (hcoll : CollFree env.H (runBackup env first d af o uuid ts tags s.connect).2.src.w.log) (u : String) (hne : u ≠ uuid)
    (r : Rev) (hr : onDisk s.src.repo.files u = some r) (hl : r.server = "") (hc : r.clean = true) :
    ∃ y, onDisk (runBackup env first d af o uuid ts tags s.connect).2.src.repo.files u = some y ∧ SameBackup r y ∧
      ∃ c, (∀ target, restore env s.connect.src.w r target = (.ok (), some c)) ∧
        ∀ target, restore env (runBackup env first d af o uuid ts tags s.connect).2.connect.src.w y target = (.ok (), some c) := by
  rcases (runBackup_cases (runBackup_good h hcoll') h.fresh first d af o ts tags).2 with e | ⟨_, k, s', hk, ha, hcn⟩
  · rw [e] at hcoll ⊢
    obtain ⟨y, y1, y2, c, _, c2, c3, _⟩ := C100_lasts env s0 s _ h.init h.steps u
      (.cons (.nil s) (.backup s af o ho uuid ts tags h.fresh h.faithful)) hcoll r hr hl hc
    exact ⟨y, y1, y2, c, c2, c3⟩
  · rw [← log_of_connect hcn] at hcoll
    obtain ⟨y, y1, y2, c, _, c2, c3, _⟩ := C100_lasts env s0 s s' h.init h.steps u
      (ha.spares hne (.cons (.nil s) (.killed s k af o uuid ts tags h.fresh h.faithful hk))) hcoll r hr hl hc
    refine ⟨y, by rw [← files_of_connect hcn]; exact y1, y2, c, c2, by rw [← hcn]; exact c3⟩

/-- **C137, the next backup** When there is room again, the next backup during which `rbd` works succeeds and its revision restores
to the image of that time. -/
theorem C137_next (env : Env) (s0 s : Sys) (first : Write) (d : Drive) (af : Bool) (o : Rbd) (uuid : String) (ts : Int)
    (tags : Finset String) (h : Before env s0 s o uuid) (hcoll' : CollFree env.H s.src.w.log) (t : Sys)
    (ht : t = (runBackup env first d af o uuid ts tags s.connect).2.connect) (image : Bytes)
    (af2 : Bool) (o2 : Rbd) (uuid2 : String) (ts2 : Int) (tags2 : Finset String) (hu2 : Fresh t uuid2)
    (hw : Works o2 t.ceph.snaps uuid2 image env.cs)
    (hcoll : CollFree env.H (Backup.runBackup env af2 o2 uuid2 ts2 tags2 { t with ceph := { t.ceph with image } }).2.src.w.log) :
    (Backup.runBackup env af2 o2 uuid2 ts2 tags2 { t with ceph := { t.ceph with image } }).1 = 0 ∧
    ∃ x, onDisk (Backup.runBackup env af2 o2 uuid2 ts2 tags2 { t with ceph := { t.ceph with image } }).2.src.repo.files uuid2 = some x ∧
      x.clean = true ∧
      ∀ target, restore env (Backup.runBackup env af2 o2 uuid2 ts2 tags2 { t with ceph := { t.ceph with image } }).2.connect.src.w x target =
        (.ok (), some image) := by
  obtain ⟨_, s', hs', hcn⟩ := C137_leaves env s0 s first d af o uuid ts tags h hcoll'
  have e : ({ t with ceph := { t.ceph with image } } : Sys) = Sys.connect { s' with ceph := { s'.ceph with image } } := by
    have : ({ t with ceph := { t.ceph with image } } : Sys) = { s'.connect with ceph := { s'.connect.ceph with image } } := by
      rw [ht, hcn]
    rw [this]
    rfl
  rw [e] at hcoll ⊢
  have hct : t.ceph = s'.ceph := by rw [ht, ← hcn]; rfl
  refine C13_backup_succeeds env s0 { s' with ceph := { s'.ceph with image } } h.init (.cons hs' (.guest _ _)) af2 o2 uuid2 ts2 tags2
    ⟨?_, ?_, ?_⟩ (by rw [hct] at hw; exact hw) hcoll
  · have := hu2.file
    rw [ht, ← hcn] at this
    exact this
  · have := hu2.image
    rw [ht, ← hcn] at this
    exact this
  · have := hu2.snap
    rw [ht, ← hcn] at this
    exact this

/-! ### A second backup on a disk that fills up -/

theorem exBefore : Before Test.env exNew exChanged (idealRbd [0, 0, 0, 0, 2, 2, 2, 2] [1]) "b" :=
  ⟨exNew_initial, exChanged_steps, exChanged_fresh, exSecond_works.faithful⟩

/-- The second backup of `Props/BackupRuns.lean`. -/
def exFull (first : Write) (d : Drive) : Nat × Sys :=
  runBackup Test.env first d false (idealRbd [0, 0, 0, 0, 2, 2, 2, 2] [1]) "b" 20 {"daily"} exChanged.connect


/-- Every one of the five writes matters: whichever fails, the exit code is 1, the new revision is not complete, and the old one is. -/
example : ∀ k < 5, (exFull .done (fun n => if n = k then .failed else .done)).1 = 1 ∧
    (onDisk (exFull .done (fun n => if n = k then .failed else .done)).2.src.repo.files "b").map (·.clean) = some false ∧
    (onDisk (exFull .done (fun n => if n = k then .failed else .done)).2.src.repo.files "a").map (·.clean) = some true := by
  decide +kernel

/-- With room for five writes it succeeds; when the metadata of the revision cannot be created there is no revision. -/
example : (exFull .done (fun n => if n < 5 then .done else .failed)).1 = 0 ∧ (exFull .failed (fun _ => .done)).1 = 1 ∧
    onDisk (exFull .failed (fun _ => .done)).2.src.repo.files "b" = none := by decide +kernel

/-- C137_leaves and C137_room -/
example := C137_leaves Test.env exNew exChanged .done (fun n => if n = 0 then .failed else .done) false _ "b" 20 {"daily"} exBefore
  (Test.collFree _)
example := C137_room Test.env exNew exChanged (fun _ => .done) (fun _ => rfl) false _ "b" 20 {"daily"} exBefore (Test.collFree _)

/-- C137_zero -/
example := C137_zero Test.env exNew exChanged .done (fun n => if n < 5 then .done else .failed) false _ "b" 20 {"daily"} exBefore
  (Test.collFree _) (Test.collFree _) (by decide +kernel)

/-- C137_complete -/
example := C137_complete Test.env exNew exChanged .done (fun n => if n < 5 then .done else .failed) false _ "b" 20 {"daily"} exBefore
  (Test.collFree _) (Test.collFree _) (finished (idealRbd [] []) (newRev "b" 20 {"daily"})) (by decide +kernel) (by decide +kernel)
  (by decide +kernel) none

/-- C137_others: the first revision. -/
example := C137_others Test.env exNew exChanged .done (fun n => if n = 0 then .failed else .done) false _ (fun _ => .refl _) "b" 20
  {"daily"} exBefore (Test.collFree _) (Test.collFree _) "a" (by decide) (finished (idealRbd [] []) (newRev "a" 10 {"daily"}))
  (by decide +kernel) (by decide +kernel) (by decide +kernel)

/-- C137_next: the third backup, from a changed image. -/
example := C137_next Test.env exNew exChanged .done (fun n => if n = 0 then .failed else .done) false _ "b" 20 {"daily"} exBefore
  (Test.collFree _) _ rfl [5, 0, 0, 0, 2, 2, 2, 2] false (idealRbd [5, 0, 0, 0, 2, 2, 2, 2] [1]) "c" 30 ∅
  ⟨by decide +kernel, by decide +kernel, by decide +kernel⟩
  (idealRbd_works [5, 0, 0, 0, 2, 2, 2, 2] (by decide) [1] 1 4 (validSample (by decide)) _ _) (Test.collFree _)

end Verif.FullDisk
