import Verif.Proofs.Beside
import Verif.Props.Overlap
import Verif.Props.BackupRuns
/-!
# C122: a backup beside restores and verifications, access by access

Restores and verifications of other processes run while a backup stores the image.  As long as they do not collect garbage, the
backup does not notice them, whatever they do between any two of its accesses to the files.
-/
namespace Verif.Beside
open Verif Verif.Chunked Verif.Spec Verif.Rbd Verif.Repo Verif.Files Verif.Diff Verif.Backup

/-- Storing the image of a new revision while nobody else works on the repository (`Model/Backup.lean`). -/
def alone (env : Env) (af : Bool) (o : Rbd) (uuid : String) (ts : Int) (tags : Finset String) (s : Sys) : Except PyErr Bool × World :=
  Backup.backupBody env af o (newRev uuid ts tags) s.ceph.image ((s.prepared uuid ts tags).snapshot (newRev uuid ts tags))

/-- Storing the image of a new revision while others do `i n` before the `n`-th access to a file (`Model/Beside.lean`). -/
def beside (env : Env) (i : Others) (af : Bool) (o : Rbd) (uuid : String) (ts : Int) (tags : Finset String) (s : Sys) :
    Except PyErr Bool × World :=
  backupBody env i af o (newRev uuid ts tags) s.ceph.image ((s.prepared uuid ts tags).snapshot (newRev uuid ts tags))

section
variable {env : Env} {L : List Bytes} {s0 s : Sys} {af : Bool} {o : Rbd} {uuid : String} {ts : Int} {tags : Finset String} {i : Others}

private theorem start (hL : CollFree env.H L) (h0 : Initial s0) (hs : Steps env s0 s) (hu : Fresh s uuid)
    (hlog : (alone env af o uuid ts tags s).2.log ⊆ L) :
    Start env (s.prepared uuid ts tags) (newRev uuid ts tags) := by
  have hl : s.src.w.log ⊆ L := by
    refine List.Subset.trans ?_ hlog
    unfold alone Backup.backupBody
    split
    · exact List.Subset.refl _
    · rename_i parent _
      have h1 := writePhase_log env o (newRev uuid ts tags).uuid parent ((s.prepared uuid ts tags).snapshot (newRev uuid ts tags)).src
      split
      · rename_i heq; rw [heq] at h1; exact h1
      · rename_i heq; rw [heq] at h1; rw [verifyPhase_log]; exact h1
  exact ((Good.initial (env := env) h0).steps hL hs hl).prepared hu ts tags

/-- **C122** After any history: whatever harmless things others do between any two accesses to files, the backup has the same outcome
as alone, it writes the same mapping file, and no chunk file is missing that it would have left alone. -/
theorem C122_same (hL : CollFree env.H L) (h0 : Initial s0) (hs : Steps env s0 s) (hu : Fresh s uuid)
    (hf : Faithful o s.ceph.snaps uuid s.ceph.image) (hi : BesideHarmless env L (s.prepared uuid ts tags).src.repo.history i)
    (hlog : (alone env af o uuid ts tags s).2.log ⊆ L) :
    (beside env i af o uuid ts tags s).1 = (alone env af o uuid ts tags s).1 ∧
    (beside env i af o uuid ts tags s).2.metas.get? uuid = (alone env af o uuid ts tags s).2.metas.get? uuid ∧
    ∀ h d, (alone env af o uuid ts tags s).2.chunks.get? h = some (some d) →
      (beside env i af o uuid ts tags s).2.chunks.get? h = some (some d) := by
  have hst := start hL h0 hs hu hlog
  obtain ⟨h1, h2⟩ := backupBody_sim (i := i) hL af o hst (prepared_noSnap hu ts tags) hf hi hlog
  exact ⟨h1, h2.metas, h2.chunks⟩

/-- **C122** After any history: a backup that stored its image beside others stored exactly the content of the snapshot. -/
theorem C122_image (hL : CollFree env.H L) (h0 : Initial s0) (hs : Steps env s0 s) (hu : Fresh s uuid)
    (hf : Faithful o s.ceph.snaps uuid s.ceph.image) (hi : BesideHarmless env L (s.prepared uuid ts tags).src.repo.history i)
    (hlog : (alone env af o uuid ts tags s).2.log ⊆ L) (v : Bool) (hok : (beside env i af o uuid ts tags s).1 = .ok v)
    (r : Rev) (hr : r.uuid = uuid) (target : Option Bytes) :
    restore env (beside env i af o uuid ts tags s).2.fresh r target = (.ok (), some s.ceph.image) := by
  have hst := start hL h0 hs hu hlog
  obtain ⟨h1, h2⟩ := backupBody_sim (i := i) hL af o hst (prepared_noSnap hu ts tags) hf hi hlog
  obtain ⟨q1, _, _, q4⟩ := backupBody_spec hL af o hst (prepared_noSnap hu ts tags) hf hlog
  have hd := q4 v (h1.symm.trans hok)
  change Like env L uuid (beside env i af o uuid ts tags s).2 (alone env af o uuid ts tags s).2 at h2
  change OnDisk env (alone env af o uuid ts tags s).2 uuid s.ceph.image at hd
  change WOK env (alone env af o uuid ts tags s).2 at q1
  generalize (alone env af o uuid ts tags s).2 = w at *
  generalize (beside env i af o uuid ts tags s).2 = v' at *
  refine C20_restore_file env v'.fresh r s.ceph.image ⟨?_, ?_⟩ ?_ (hL.mono h2.good.log) target
  · intro h x hx
    obtain ⟨d, g1, g2, g3⟩ := h2.good.files h x hx
    refine ⟨d, g1, g2, g3, ?_⟩
    subst g1
    rcases h2.small h d hx with h3 | h3
    · obtain ⟨d', e1, _, _, e4⟩ := q1.good h _ h3
      cases e1
      exact e4
    · exact h3
  · intro h hh
    exact absurd hh (by simp [World.fresh])
  · obtain ⟨m, m1, m2, m3, m4⟩ := hd
    refine ⟨m, ?_, m2, fun h hh => ?_, fun p hp => ?_⟩
    · rw [hr]
      exact h2.metas.trans m1
    · obtain ⟨d, hd⟩ := m3 h hh
      exact ⟨d, h2.chunks h d hd⟩
    · obtain ⟨h, d, g1, g2, g3, g4⟩ := m4 p hp
      exact ⟨h, d, g1, h2.chunks h d g2, g3, g4⟩

/-- **C122** After any history: if `rbd` works, a backup beside others is successful. -/
theorem C122_works (hL : CollFree env.H L) (h0 : Initial s0) (hs : Steps env s0 s) (hu : Fresh s uuid)
    (hf : Works o s.ceph.snaps uuid s.ceph.image env.cs) (hi : BesideHarmless env L (s.prepared uuid ts tags).src.repo.history i)
    (hlog : (alone env af o uuid ts tags s).2.log ⊆ L) :
    (beside env i af o uuid ts tags s).1 = .ok true := by
  rw [(C122_same hL h0 hs hu hf.faithful hi hlog).1]
  exact backupBody_ok hL (start hL h0 hs hu hlog) (prepared_noSnap hu ts tags) hf hlog

end

/-- One turn of a verification by another process, with its own list of revisions and its own `Store` object, up to its garbage
collection. -/
def verification (env : Env) (order : List Hash → List Hash) (repo : Repo) (x : Rev) (w : World) : World :=
  { (Src.verifyMark env order ⟨repo, w.fresh⟩ x).2.w with seen := w.seen, force := w.force }

theorem firstBad_missing {env : Env} {L : List Bytes} {w : World} (hw : Sound env L w) :
    ∀ (l : List Hash) (h : Hash), firstBad env w.fresh l = some h → w.chunks.get? h = none
  | [], h, hh => by simp [firstBad] at hh
  | a :: l, h, hh => by
    simp only [firstBad] at hh
    split at hh
    · rename_i e he
      cases hh
      cases hg : w.chunks.get? a with
      | none => rfl
      | some x =>
        obtain ⟨d, h1, h2, _⟩ := hw.files a x hg
        subst h1
        simp [Chunk.readExisting, Chunk.new, World.fresh, hg, h2] at he
    · exact firstBad_missing hw l h hh

/-- **C122** A verification of any revision by another process, with any list of revisions, is harmless up to its garbage collection:
it deletes chunk files only if they are damaged. -/
theorem C122_verification (env : Env) (L : List Bytes) (keep : List String) (order : List Hash → List Hash) (repo : Repo) (x : Rev)
    (w : World) (hw : Sound env L w) : Harmless env L keep w (verification env order repo x w) := by
  have key : (Src.verifyMark env order ⟨repo, w.fresh⟩ x).2.w.chunks.get? = w.chunks.get? ∧
      (Src.verifyMark env order ⟨repo, w.fresh⟩ x).2.w.log = w.log ∧
      (Src.verifyMark env order ⟨repo, w.fresh⟩ x).2.w.tick = w.tick := by
    unfold Src.verifyMark
    split
    · exact ⟨rfl, rfl, rfl⟩
    · split
      · rename_i h hb
        refine ⟨?_, rfl, rfl⟩
        funext k
        show (w.chunks.erase h).get? k = _
        rw [Dict.get?_erase]
        split
        · rename_i hk
          rw [hk, firstBad_missing hw _ h hb]
        · rfl
      · split <;> exact ⟨rfl, rfl, rfl⟩
  refine ⟨fun h d hd => ?_, fun h y hy => .inl ?_, fun n _ => ?_, ?_, ?_, rfl, rfl, key.2.2⟩
  · show (Src.verifyMark env order ⟨repo, w.fresh⟩ x).2.w.chunks.get? h = _
    rw [key.1]; exact hd
  · rw [← key.1]; exact hy
  · show (Src.verifyMark env order ⟨repo, w.fresh⟩ x).2.w.metas.get? n = _
    rw [Overlap.verifyMark_metas]; rfl
  · show w.log ⊆ (Src.verifyMark env order ⟨repo, w.fresh⟩ x).2.w.log
    rw [key.2.1]; exact List.Subset.refl _
  · show (Src.verifyMark env order ⟨repo, w.fresh⟩ x).2.w.log ⊆ L
    rw [key.2.1]; exact hw.log

/-- Doing nothing to the directory, as restores do, is harmless. -/
theorem Harmless.refl {env : Env} {L : List Bytes} {keep : List String} {w : World} (hw : Sound env L w) : Harmless env L keep w w :=
  ⟨fun _ _ h => h, fun _ _ h => .inl h, fun _ _ => rfl, List.Subset.refl _, hw.log, rfl, rfl, rfl⟩

theorem Harmless.trans {env : Env} {L : List Bytes} {keep : List String} {w w' w'' : World} (h : Harmless env L keep w w')
    (h' : Harmless env L keep w' w'') : Harmless env L keep w w'' := by
  refine ⟨fun x d hd => h'.kept x d (h.kept x d hd), fun x y hy => ?_, fun n hn => (h'.metas n hn).trans (h.metas n hn),
    List.Subset.trans h.older h'.older, h'.log, h'.seen.trans h.seen, h'.force.trans h.force, h'.tick.trans h.tick⟩
  rcases h'.added x y hy with h1 | h1
  · rcases h.added x y h1 with h2 | ⟨d, h2, h3, h4, h5⟩
    · exact .inl h2
    · exact .inr ⟨d, h2, h3, h'.older h4, h5⟩
  · exact .inr h1

/-- **C122** Any number of verifications by other processes in every turn, of any revisions and with any lists of revisions, are
harmless up to their garbage collections. -/
theorem C122_verifications (env : Env) (L : List Bytes) (known : List Rev) (order : List Hash → List Hash) (which : Nat → List (Repo × Rev)) :
    BesideHarmless env L known (fun n w => (which n).foldl (fun w q => verification env order q.1 q.2 w) w) := by
  intro n w hw
  dsimp only
  generalize which n = l
  have : ∀ (l : List (Repo × Rev)) (w' : World), Sound env L w' → Harmless env L (known.map Rev.uuid) w w' →
      Harmless env L (known.map Rev.uuid) w (l.foldl (fun w q => verification env order q.1 q.2 w) w') := by
    intro l
    induction l with
    | nil => intro w' _ h; exact h
    | cons q l ih =>
      intro w' hw' h
      have h1 := C122_verification env L (known.map Rev.uuid) order q.1 q.2 w' hw'
      exact ih _ (h1.sound hw') (h.trans h1)
  exact this l w hw (Harmless.refl hw)

/-! ### A backup beside a verification and its garbage collection -/

/-- The `rbd` commands for the second backup, of which the first block is compared. -/
def exCommands : Rbd := idealRbd [0, 0, 0, 0, 2, 2, 2, 2] [0]

theorem exCommands_works : Works exCommands exChanged.ceph.snaps "b" exChanged.ceph.image Test.env.cs :=
  idealRbd_works [0, 0, 0, 0, 2, 2, 2, 2] (by decide) [0] 1 4 (validSample (b := 0) (by decide)) _ _

/-- The list of revisions of another process that has read the directory after the backup created its revision `b`. -/
def exKnows : Repo := (exChanged.prepared "b" 20 {"daily"}).src.repo

/-- The revision of the first backup, as this process has read it. -/
def exOld : Rev := (exKnows.history.find? (fun r => decide (r.uuid = "a"))).getD (newRev "a" 10 {"daily"})

/-- Another process verifies the revision `a`, with everything that belongs to it, before the eighth access of the backup. -/
def exVerify (n : Nat) (w : World) : World :=
  if n = 8 then { (Src.verify Test.env id ⟨exKnows, w.fresh⟩ exOld).2.w with seen := w.seen, force := w.force } else w

/-- The backup `b` beside it. -/
def exRun : Except PyErr Bool × World := beside Test.env exVerify false exCommands "b" 20 {"daily"} exChanged

/-- **C41, not satisfied even if everybody knows all revisions**: a verification of another revision by a process that knows the
revision of the running backup removes, with its garbage collection, chunk files the backup has written but has not yet entered
into its mapping file; the backup succeeds, and its image cannot be restored.  All `rbd` commands work. -/
theorem C41_false_running_gc : New exNew ∧ Steps Test.env exNew exChanged ∧
    Works exCommands exChanged.ceph.snaps "b" exChanged.ceph.image Test.env.cs ∧ exOld ∈ exKnows.history ∧ "b" ∈ exKnows.history.map Rev.uuid ∧
    exRun.1 = .ok true ∧ (restore Test.env exRun.2.fresh (newRev "b" 20 {"daily"}) none).1 = .error .backend :=
  ⟨exNew_new, exChanged_steps, exCommands_works, by decide +kernel, by decide +kernel, by decide +kernel, by decide +kernel⟩

/-! ### The theorems of this file applied -/

/-- Two processes verify `a` and `b` over and over. -/
def exOthers (_ : Nat) : List (Repo × Rev) := [(exKnows, newRev "a" 10 {"daily"}), (⟨[], [], []⟩, newRev "b" 20 {"daily"})]

/-- What these processes do in every turn. -/
def exTurns (n : Nat) (w : World) : World := (exOthers n).foldl (fun w q => verification Test.env id q.1 q.2 w) w

theorem exTurns_harmless (L : List Bytes) : BesideHarmless Test.env L (exChanged.prepared "b" 20 {"daily"}).src.repo.history exTurns :=
  C122_verifications Test.env L _ id exOthers

example := C122_same (i := exTurns) (af := false) (Test.collFree _) exNew_initial exChanged_steps exChanged_fresh exCommands_works.faithful
  (ts := 20) (tags := {"daily"}) (exTurns_harmless _) (List.Subset.refl _)
theorem exBeside : (beside Test.env exTurns false exCommands "b" 20 {"daily"} exChanged).1 = .ok true :=
  C122_works (i := exTurns) (af := false) (Test.collFree _) exNew_initial exChanged_steps exChanged_fresh exCommands_works
    (exTurns_harmless _) (List.Subset.refl _)
example : restore Test.env (beside Test.env exTurns false exCommands "b" 20 {"daily"} exChanged).2.fresh (newRev "b" 20 {"daily"}) none =
    (.ok (), some [0, 0, 0, 0, 2, 2, 2, 2]) :=
  C122_image (i := exTurns) (af := false) (Test.collFree _) exNew_initial exChanged_steps exChanged_fresh exCommands_works.faithful
    (exTurns_harmless _) (List.Subset.refl _) true exBeside _ rfl none
example : (beside Test.env exTurns false exCommands "b" 20 {"daily"} exChanged).1 = .ok true := by decide +kernel
example : Harmless Test.env [[5, 6]] ["a"] ⟨[(Test.env.H [5, 6], some [5, 6])], [], [], false, 0, [[5, 6]]⟩
    (verification Test.env id ⟨[], [], []⟩ (newRev "a" 10 {"daily"}) ⟨[(Test.env.H [5, 6], some [5, 6])], [], [], false, 0, [[5, 6]]⟩) := by
  refine C122_verification _ _ _ _ _ _ _ ⟨fun h x hx => ?_, fun _ h => h⟩
  simp only [Dict.get?] at hx
  split at hx
  · rename_i he
    cases hx
    exact ⟨_, rfl, he, by simp⟩
  · cases hx

end Verif.Beside
