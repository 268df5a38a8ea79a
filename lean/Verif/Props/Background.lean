import Verif.Model.Background
import Verif.Props.Api
import Verif.Props.Requests
/-!
# C91: asking the daemon for backups
-/
namespace Verif.Background
open Verif Verif.Repo Verif.Api Verif.Cli Verif.Commands

/-- The event of the job is set. -/
def asked (b : Backup) : Backup := { b with runNow := true }

theorem bgLoop_spec (pd : String → Option Int) (l : Link) : ∀ (names : List String) (n : Nat) (s : Server),
    Authorized s.tokens ⟨some ("Bearer " ++ l.token), .reload⟩ →
    ∃ k ≤ names.length, (∀ i < k, l.lost (n + i) = false ∧ ∃ name b, names[i]? = some name ∧ s.jobs.get? name = some b) ∧
      (∀ name, (bgLoop pd l n names s).2.jobs.get? name =
        if name ∈ names.take k then (s.jobs.get? name).map asked else s.jobs.get? name) ∧
      (bgLoop pd l n names s).2.dead = s.dead ∧
      ((k = names.length ∧ (bgLoop pd l n names s).1 = .ok (.int 0)) ∨
        ∃ name, names[k]? = some name ∧
          ((l.lost (n + k) = true ∧ (bgLoop pd l n names s).1 = .error .client) ∨
            (s.jobs.get? name = none ∧ (bgLoop pd l n names s).1 = .ok (.int 1))))
  | [], n, s, _ => ⟨0, Nat.le_refl _, by intro i hi; omega, by simp [bgLoop], rfl, .inl ⟨rfl, rfl⟩⟩
  | name :: rest, n, s, hauth => by
    simp only [bgLoop, ask]
    cases hl : l.lost n with
    | true =>
      refine ⟨0, Nat.zero_le _, by intro i hi; omega, ?_, rfl, .inr ⟨name, rfl, .inl ⟨hl, rfl⟩⟩⟩
      intro x; simp
    | false =>
      simp only [Bool.false_eq_true, if_false]
      have h84 := C84_accepted pd s ⟨some ("Bearer " ++ l.token), .runJob name⟩ name rfl ((authenticate_iff _ _).mpr hauth)
      have htok : ∀ s', (handle pd s ⟨some ("Bearer " ++ l.token), .runJob name⟩).2 = s' → s'.tokens = s.tokens := by
        intro s' h; subst h
        simp only [handle]
        split
        · rfl
        · simp only [dispatch, runJob]; split <;> rfl
      generalize handle pd s ⟨some ("Bearer " ++ l.token), .runJob name⟩ = g at *
      obtain ⟨r, s'⟩ := g
      dsimp only at h84 htok ⊢
      rcases h84 with ⟨b, hb, hcode, hjobs, hdead⟩ | ⟨hnone, hcode, rfl⟩
      · rw [hcode]
        simp only [show ¬(202 = 404) by decide, show ¬(202 ≥ 400) by decide, if_false]
        obtain ⟨k, hk, h1, h2, h3, h4⟩ := bgLoop_spec pd l rest (n + 1) s' (by rw [htok s' rfl]; exact hauth)
        have hsome : ∀ x, (s'.jobs.get? x = none ↔ s.jobs.get? x = none) := by
          intro x; rw [hjobs x]; split
          · subst_vars; simp [hb]
          · rfl
        refine ⟨k + 1, by simpa using hk, ?_, ?_, ?_, ?_⟩
        · intro i hi
          cases i with
          | zero => exact ⟨hl, name, b, rfl, hb⟩
          | succ i =>
            obtain ⟨g1, x, b', g2, g3⟩ := h1 i (by omega)
            refine ⟨by rw [← g1]; congr 1; omega, x, ?_⟩
            cases hx : s.jobs.get? x with
            | none => rw [(hsome x).mpr hx] at g3; cases g3
            | some b'' => exact ⟨b'', by simpa using g2, rfl⟩
        · intro x
          rw [h2 x, hjobs x]
          simp only [List.take_succ_cons, List.mem_cons]
          by_cases hx : x = name
          · subst hx
            simp only [if_true, true_or, hb]
            split <;> simp [asked]
          · simp only [hx, if_false, false_or]
        · rw [h3, hdead]
        · rcases h4 with ⟨rfl, g⟩ | ⟨x, g1, g2⟩
          · exact .inl ⟨rfl, g⟩
          · refine .inr ⟨x, by simpa using g1, ?_⟩
            rcases g2 with ⟨g2, g3⟩ | ⟨g2, g3⟩
            · exact .inl ⟨by rw [← g2]; congr 1; omega, g3⟩
            · exact .inr ⟨(hsome x).mp g2, g3⟩
      · rw [hcode]
        simp only [if_true]
        refine ⟨0, Nat.zero_le _, by intro i hi; omega, ?_, by trivial, .inr ⟨name, by simp, .inr ⟨hnone, by trivial⟩⟩⟩
        intro x; simp

/-- The repository of a job is the directory of its name in the base directory (`daemon/scheduler.py:55`). -/
structure InDir (base : String) (j : JobRef) : Prop where
  path : j.path = base ++ "/" ++ j.name
  slash : '/' ∉ j.name.toList

theorem InDir.name {base : String} {j : JobRef} (h : InDir base j) : pathName j.path = j.name := by
  unfold pathName
  rw [h.path]
  have h1 : (base ++ "/" ++ j.name).toList.reverse = j.name.toList.reverse ++ '/' :: base.toList.reverse := by
    simp
  rw [h1, List.takeWhile_append_of_pos (by
    intro c hc
    rw [List.mem_reverse] at hc
    simp only [decide_eq_true_eq]
    rintro rfl
    exact h.slash hc)]
  simp

/-- `backy --jobs … backup --bg` asks the daemon for the selected jobs, one after the other in the order of the daemon, until one
request is not accepted; exactly the jobs asked for so far are told to run.  The exit code is 0 exactly if all of them were. -/
theorem C91_requests (base : String) (pd : String → Option Int) (l : Link) (jobs : List JobRef) (m : String → Bool) (tags : String) (force : Bool)
    (s : Server) (hauth : Authorized s.tokens ⟨some ("Bearer " ++ l.token), .reload⟩)
    (hnames : ∀ j ∈ jobs, InDir base j) (hsel : ∃ j ∈ jobs, m j.name = true) :
    let selected := (jobs.map (·.name)).filter m
    let out := mainBg pd l (.ok jobs) (.ok m) tags force s
    ∃ k ≤ selected.length,
      (∀ i < k, l.lost i = false ∧ ∃ name b, selected[i]? = some name ∧ s.jobs.get? name = some b) ∧
      (∀ name, out.2.jobs.get? name = if name ∈ selected.take k then (s.jobs.get? name).map asked else s.jobs.get? name) ∧
      out.2.dead = s.dead ∧
      ((k = selected.length ∧ out.1 = 0) ∨
        (out.1 = 1 ∧ ∃ name, selected[k]? = some name ∧ (l.lost k = true ∨ s.jobs.get? name = none))) := by
  have hsel' : (jobs.filter (fun j => m j.name)).map (fun j => pathName j.path) = (jobs.map (·.name)).filter m := by
    rw [List.filter_map]
    apply List.map_congr_left
    intro j hj
    exact (hnames j (List.mem_filter.mp hj).1).name
  obtain ⟨j, hj, hm⟩ := hsel
  have h1 : jobs ≠ [] := by rintro rfl; cases hj
  have h2 : jobs.filter (fun j => m j.name) ≠ [] := by
    intro h
    have : j ∈ jobs.filter (fun j => m j.name) := List.mem_filter.mpr ⟨hj, hm⟩
    rw [h] at this; cases this
  simp only [mainBg, getRepos, h1, h2, if_false, backupBg, hsel']
  obtain ⟨k, hk, g1, g2, g3, g4⟩ := bgLoop_spec pd l ((jobs.map (·.name)).filter m) 0 s hauth
  simp only [Nat.zero_add] at g1 g4
  generalize bgLoop pd l 0 ((jobs.map (·.name)).filter m) s = g at *
  obtain ⟨r, s'⟩ := g
  refine ⟨k, hk, g1, g2, g3, ?_⟩
  rcases g4 with ⟨rfl, rfl⟩ | ⟨x, g5, ⟨g6, rfl⟩ | ⟨g6, rfl⟩⟩
  · exact .inl ⟨rfl, rfl⟩
  · exact .inr ⟨rfl, x, g5, .inl g6⟩
  · exact .inr ⟨rfl, x, g5, .inr g6⟩

/-- Nothing is asked for, and the exit code is 1, if the daemon has no jobs, none is selected, or it cannot be asked for its jobs. -/
theorem C91_nothing_selected (pd : String → Option Int) (l : Link) (answer : Except PyErr (List JobRef)) (m : String → Bool)
    (tags : String) (force : Bool) (s : Server) (h : ∀ jobs, answer = .ok jobs → ∀ j ∈ jobs, m j.name = false) :
    mainBg pd l answer (.ok m) tags force s = (1, s) := by
  simp only [mainBg, getRepos]
  cases answer with
  | error e => rfl
  | ok jobs =>
    have : jobs.filter (fun j => m j.name) = [] := by
      rw [List.filter_eq_nil_iff]
      intro j hj
      simp [h jobs rfl j hj]
    simp only [this, if_true]
    by_cases hj : jobs = [] <;> simp [hj]

/-- The tags given on the command line, and whether they were to be checked, have no effect on such a backup. -/
theorem C91_tags_ignored (pd : String → Option Int) (l : Link) (answer : Except PyErr (List JobRef)) (matcher : Except PyErr (String → Bool))
    (tags tags' : String) (force force' : Bool) (s : Server) :
    mainBg pd l answer matcher tags force s = mainBg pd l answer matcher tags' force' s := rfl

/-! A daemon with three jobs; the second has been removed since the list was made. -/

def exBackup : Backup := ⟨⟨[], [], []⟩, false, false, 0, false⟩
def exServer : Server := ⟨[("secret", "cli")], [], [("vm1", exBackup), ("vm3", exBackup), ("db", exBackup)], 0⟩
def exJobs : List JobRef := [⟨"vm1", "/srv/backy/vm1", []⟩, ⟨"vm2", "/srv/backy/vm2", []⟩, ⟨"vm3", "/srv/backy/vm3", []⟩]
def exLink : Link := ⟨"secret", fun _ => false⟩

theorem exServer_auth : Authorized exServer.tokens ⟨some ("Bearer " ++ exLink.token), .reload⟩ := ⟨"secret", "cli", rfl, rfl, by decide⟩

theorem exJobs_inDir : ∀ j ∈ exJobs, InDir "/srv/backy" j := by
  intro j hj
  simp only [exJobs, List.mem_cons, List.not_mem_nil, or_false] at hj
  rcases hj with rfl | rfl | rfl <;> exact ⟨by decide, by decide⟩

example :
    (mainBg (fun _ => none) exLink (.ok exJobs) (.ok (fun n => n != "db")) "daily" false exServer).1 = 1 ∧
    (mainBg (fun _ => none) exLink (.ok exJobs) (.ok (fun n => n != "db")) "daily" false exServer).2.jobs.map (fun j => (j.1, j.2.runNow)) =
      [("vm1", true), ("vm3", false), ("db", false)] ∧
    (mainBg (fun _ => none) exLink (.ok exJobs) (.ok (fun n => n != "vm2")) "daily" false exServer).1 = 0 := by
  decide +kernel

/-- C91_requests, C91_nothing_selected -/
example := C91_requests "/srv/backy" (fun _ => none) exLink exJobs (fun n => n != "db") "daily" false exServer exServer_auth exJobs_inDir
  ⟨⟨"vm1", "/srv/backy/vm1", []⟩, by simp [exJobs], by decide⟩
example := C91_nothing_selected (fun _ => none) exLink (.ok exJobs) (fun n => n == "web") "daily" false exServer (by
  intro jobs h j hj
  cases h
  simp only [exJobs, List.mem_cons, List.not_mem_nil, or_false] at hj
  rcases hj with rfl | rfl | rfl <;> decide)

example := C91_tags_ignored (fun _ => none) exLink (.ok exJobs) (.ok (fun n => n != "db")) "daily" "manual:urgent" false true exServer

end Verif.Background
