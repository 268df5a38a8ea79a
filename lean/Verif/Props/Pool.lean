import Verif.Model.Pool
import Verif.Props.Record
import Verif.Props.Slots
import Verif.Props.BackupRuns
/-!
# C123: jobs with short backups have worker slots of their own
-/
namespace Verif.Pool
open Verif Verif.Repo Verif.Backup

/-- The newest complete revision, of this server or of another one: among revisions with the same time, any of them may be it. -/
structure Newest (repo : Repo) (r : Rev) : Prop where
  mem : r ∈ repo.history
  complete : r.clean = true
  newest : ∀ q ∈ repo.history, q.clean = true → q.ts ≤ r.ts

theorem clean_duration (r : Rev) : r.clean = true ↔ ∃ d, r.stats.get? "duration" = some d := by
  simp [Rev.clean, Dict.has, Option.isSome_iff_exists]

theorem mem_cleanHistory {repo : Repo} {r : Rev} : r ∈ repo.cleanHistory ↔ r ∈ repo.history ∧ r.clean = true := by
  simp [Repo.cleanHistory, Repo.getHistory]

/-- **C123** In any directory: the choice never fails; a job uses the slots of the fast jobs exactly if it has a complete revision and
the newest one took less than ten minutes. -/
theorem C123_choice (repo : Repo) :
    ((∀ r ∈ repo.scan.history, r.clean = false) ∧ fast repo.scan = .ok false) ∨
    ∃ r d, Newest repo.scan r ∧ r.stats.get? "duration" = some d ∧ fast repo.scan = .ok (decide (d < 600)) := by
  have hs := repo.scan_sorted
  generalize repo.scan = s at *
  unfold fast
  cases hl : s.cleanHistory.getLast? with
  | none =>
    refine .inl ⟨fun r hr => ?_, rfl⟩
    rw [List.getLast?_eq_none_iff] at hl
    cases hc : r.clean with
    | false => rfl
    | true =>
      have := mem_cleanHistory.2 ⟨hr, hc⟩
      rw [hl] at this
      cases this
  | some r =>
    obtain ⟨l, hl'⟩ := List.getLast?_eq_some_iff.1 hl
    have hr := mem_cleanHistory.1 (by rw [hl']; simp : r ∈ s.cleanHistory)
    obtain ⟨d, hd⟩ := (clean_duration r).1 hr.2
    refine .inr ⟨r, d, ⟨hr.1, hr.2, fun q hq hqc => ?_⟩, hd, by simp [short, hd]⟩
    have hp : s.cleanHistory.Pairwise (fun a b : Rev => a.ts ≤ b.ts) := hs.sublist List.filter_sublist
    have hqm := mem_cleanHistory.2 ⟨hq, hqc⟩
    rw [hl'] at hp hqm
    rcases List.mem_append.1 hqm with h | h
    · exact (List.pairwise_append.1 hp).2.2 q h r (by simp)
    · simp only [List.mem_singleton] at h
      rw [h]

/-- **C123** After a backup that left its revision complete, if no revision in the directory has this time or a later one, the next
run of the job uses the slots of the fast jobs exactly if this backup took less than ten minutes. -/
theorem C123_after_backup (env : Env) (af : Bool) (o : Rbd) (uuid : String) (ts : Int) (tags : Finset String) (s : Sys)
    (hn : Named s.src.repo.files) (hn' : Named (runBackup env af o uuid ts tags s).2.src.repo.files) (x : Rev)
    (hx : onDisk (runBackup env af o uuid ts tags s).2.src.repo.files uuid = some x) (hc : x.clean = true)
    (hlast : ∀ u y, onDisk (runBackup env af o uuid ts tags s).2.src.repo.files u = some y → u ≠ uuid → y.ts < ts) :
    fast (runBackup env af o uuid ts tags s).2.src.repo.scan = .ok (decide (o.duration < 600)) := by
  obtain ⟨h1, h2, _, _, _, _, h7⟩ := C81_record env af o uuid ts tags s hn x hx hc
  have hsync := Sync.scan hn'
  have hxm : x ∈ (runBackup env af o uuid ts tags s).2.src.repo.scan.history := (hsync.mem x).2 (by rw [h1]; exact hx)
  rcases C123_choice (runBackup env af o uuid ts tags s).2.src.repo with ⟨h, _⟩ | ⟨r, d, hr, hd, hf⟩
  · rw [h x hxm] at hc; cases hc
  · have hrd := (hsync.mem r).1 hr.mem
    have hru : r.uuid = uuid := by
      by_cases hh : r.uuid = uuid
      · exact hh
      · have h3 := hlast r.uuid r hrd hh
        have h4 := hr.newest x hxm hc
        rw [h2] at h4
        omega
    have : r = x := by
      have e : onDisk (runBackup env af o uuid ts tags s).2.src.repo.files r.uuid = some r := hrd
      rw [hru, hx] at e
      exact (Option.some.inj e).symm
    rw [this, h7] at hd
    cases hd
    exact hf

/-! ### The second backup of `Props/BackupRuns.lean`, and a slow one of another server -/

theorem exSecond_named : Named exSecond.src.repo.files :=
  ((Good.initial exNew_initial).steps (Test.collFree exSecond.src.w.log)
    (.cons exChanged_steps (.backup _ _ _ _ _ _ exChanged_fresh exSecond_works.faithful)) (fun _ h => h)).disk.named

example : fast exSecond.src.repo.scan = .ok true := by
  have hx : ∃ x, onDisk exSecond.src.repo.files "b" = some x ∧ x.clean = true := by decide +kernel
  obtain ⟨x, h1, h2⟩ := hx
  refine C123_after_backup Test.env false (idealRbd [0, 0, 0, 0, 2, 2, 2, 2] [1]) "b" 20 {"daily"} exChanged.connect
    exChanged_named exSecond_named x h1 h2 ?_
  intro u y hy hne
  have hall : ∀ q ∈ exSecond.src.repo.scan.history, q.uuid ≠ "b" → q.ts < 20 := by decide +kernel
  have hu := onDisk_uuid exSecond_named hy
  exact hall y (((Sync.scan exSecond_named).mem y).2 (by rw [hu]; exact hy)) (by rw [hu]; exact hne)

/-- A complete revision of another server that took an hour. -/
def exSlow : Rev := ⟨"z", 30, [("bytes_written", 0), ("duration", 3600)], .trusted, ∅, ∅, "peer"⟩

example : fast (exSecond.src.repo.writeInfo exSlow).scan = .ok false ∧ fast (⟨[], [], []⟩ : Repo).scan = .ok false := by decide +kernel
example := C123_choice (exSecond.src.repo.writeInfo exSlow)

end Verif.Pool
