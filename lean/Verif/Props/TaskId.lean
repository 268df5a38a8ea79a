import Verif.Model.TaskId
/-!
# C129: the id of a run in log entries
-/
namespace Verif.TaskId
open Verif

/-- All loggers of the job have its name and this id. -/
structure Marked (j : Job) (id : String) : Prop where
  own : j.taskid = id
  job : field [] j.log "sub_taskid" = some id ∧ field [] j.log "job_name" = some j.name
  source : ∀ s, j.source = some s → (field [] s.log "sub_taskid" = some id ∧ field [] s.log "job_name" = some j.name) ∧
    (field [] s.repo "sub_taskid" = some id ∧ field [] s.repo "job_name" = some j.name)

/-- The id of the last run that was started. -/
def lastRun : List Ev → Option String
  | [] => none
  | e :: es =>
    match lastRun es, e with
    | some id, _ => some id
    | none, .pass id => some id
    | none, .configure => none

theorem bindRun_fields (name id : String) (log : Logger) :
    field [] (bindRun name id log) "sub_taskid" = some id ∧ field [] (bindRun name id log) "job_name" = some name := by
  unfold field bindRun
  constructor
  · rw [Dict.get?_set_self]
  · rw [Dict.get?_set_ne _ _ (by decide), Dict.get?_set_self]

theorem Marked.pass (j : Job) (id : String) : Marked (j.pass id) id := by
  refine ⟨rfl, bindRun_fields _ _ _, ?_⟩
  intro s hs
  change runSource _ _ j.source = _ at hs
  unfold runSource at hs
  split at hs
  · cases hs
  · cases hs
    exact ⟨bindRun_fields _ _ _, bindRun_fields _ _ _⟩

theorem field_set_ne (log : Logger) {a b : String} (v : String) (h : b ≠ a) : field [] (log.set a v) b = field [] log b := by
  unfold field
  rw [Dict.get?_set_ne _ _ h]

theorem field_set_self (log : Logger) (a v : String) : field [] (log.set a v) a = some v := by
  unfold field
  rw [Dict.get?_set_self]

theorem Marked.configure {j : Job} {id : String} (h : Marked j id) : Marked j.configure id := by
  refine ⟨h.own, h.job, ?_⟩
  intro s hs
  cases hs
  refine ⟨⟨?_, ?_⟩, ?_, ?_⟩
  · exact (field_set_ne _ _ (by decide)).trans h.job.1
  · exact (field_set_ne _ _ (by decide)).trans h.job.2
  · exact (field_set_ne _ _ (by decide)).trans ((field_set_ne _ _ (by decide)).trans h.job.1)
  · exact field_set_self _ _ _

theorem marked_steps : ∀ (es : List Ev) (j : Job) (id : String), (lastRun es = some id ∨ (lastRun es = none ∧ Marked j id)) → Marked (j.steps es) id
  | [], j, id, h => by
    rcases h with h | ⟨_, h⟩
    · cases h
    · exact h
  | e :: es, j, id, h => by
    show Marked ((j.step e).steps es) id
    refine marked_steps es (j.step e) id ?_
    cases hl : lastRun es with
    | some x =>
      have : lastRun (e :: es) = some x := by simp [lastRun, hl]
      rw [this] at h
      rcases h with h | ⟨h, _⟩
      · exact Or.inl h
      · cases h
    | none =>
      refine Or.inr ⟨rfl, ?_⟩
      cases e with
      | pass x =>
        have : lastRun (.pass x :: es) = some x := by simp [lastRun, hl]
        rw [this] at h
        rcases h with h | ⟨h, _⟩
        · cases h; exact Marked.pass j id
        · cases h
      | configure =>
        have : lastRun (.configure :: es) = none := by simp [lastRun, hl]
        rw [this] at h
        rcases h with h | ⟨_, h⟩
        · cases h
        · exact h.configure

theorem steps_name : ∀ (es : List Ev) (j : Job), (j.steps es).name = j.name
  | [], _ => rfl
  | e :: es, j => by
    show ((j.step e).steps es).name = _
    rw [steps_name es]
    cases e <;> rfl

/-- **C129 (partial)** After any history of configurations and runs of a job: what the daemon writes in the log for the job, its source and its repository has the name of
the job and the id of the run that was started last. -/
theorem C129_daemon_partial (name : String) (log : Logger) (es : List Ev) (id : String) (h : lastRun es = some id) :
    let j := (Job.new name log).steps es
    (field [] j.log "sub_taskid" = some id ∧ field [] j.log "job_name" = some name) ∧
    ∀ s, j.source = some s → (field [] s.log "sub_taskid" = some id ∧ field [] s.log "job_name" = some name) ∧
      (field [] s.repo "sub_taskid" = some id ∧ field [] s.repo "job_name" = some name) := by
  have hm := marked_steps es (Job.new name log) id (Or.inl h)
  have hn := steps_name es (Job.new name log)
  have hn' : ((Job.new name log).steps es).name = name := hn
  exact ⟨by have := hm.job; rwa [hn'] at this, fun s hs => by have := hm.source s hs; rwa [hn'] at this⟩

/-- **C129 (partial)** Peers that are asked by the run note its id in their entries for the request. -/
theorem C129_peers_partial (name : String) (log peerLog : Logger) (es : List Ev) (id fresh : String) (h : lastRun es = some id) :
    peerField peerLog ((Job.new name log).steps es).taskid fresh "sub_taskid" = some id := by
  rw [(marked_steps es (Job.new name log) id (Or.inl h)).own]
  unfold peerField field
  rw [Dict.get?_set_ne _ _ (by decide), Dict.get?_set_self]

/-- The keys with which `CmdLineSource.taskid` looks for an id are not bound. -/
def Unbound (log : Logger) : Prop := log.get? "subtaskid" = none ∧ log.get? "taskid" = none

theorem Unbound.set {log : Logger} (h : Unbound log) {a : String} (v : String) (h1 : a ≠ "subtaskid") (h2 : a ≠ "taskid") : Unbound (log.set a v) :=
  ⟨by rw [Dict.get?_set_ne _ _ (Ne.symm h1)]; exact h.1, by rw [Dict.get?_set_ne _ _ (Ne.symm h2)]; exact h.2⟩

theorem Unbound.run {log : Logger} (h : Unbound log) (name id : String) : Unbound (bindRun name id log) :=
  (h.set name (by decide) (by decide)).set id (by decide) (by decide)

theorem unbound_steps : ∀ (es : List Ev) (j : Job), Unbound j.log → (∀ s, j.source = some s → Unbound s.log) →
    ∀ s, (j.steps es).source = some s → Unbound s.log
  | [], _, _, h2 => h2
  | e :: es, j, h1, h2 => by
    show ∀ s, ((j.step e).steps es).source = some s → Unbound s.log
    refine unbound_steps es (j.step e) ?_ ?_
    · cases e with
      | configure => exact h1
      | pass id => exact h1.run _ _
    · intro s hs
      cases e with
      | configure => cases hs; exact h1.set _ (by decide) (by decide)
      | pass id =>
        have hs : (j.pass id).source = some s := hs
        change runSource _ _ j.source = _ at hs
        unfold runSource at hs
        split at hs
        · cases hs
        · rename_i s' hs'
          cases hs
          exact (h2 s' hs').run _ _

/-- **C129 is false of the code**: whatever happened before, the entries of the program that a run starts have no id of the run.  Their only id is one that is generated for
the program. -/
theorem C129_false_program (name : String) (es : List Ev) (fresh : String) (s : Source)
    (hs : ((Job.new name [("subsystem", "daemon")]).steps es).source = some s) :
    programField s.log fresh "sub_taskid" = none ∧ programField s.log fresh "taskid" = some fresh := by
  have h := unbound_steps es (Job.new name [("subsystem", "daemon")])
    (by constructor <;> rfl) (fun s h => by cases h) s hs
  refine ⟨rfl, ?_⟩
  unfold programField taskidOf
  rw [h.1, h.2]
  rfl

/-- **C129 is false of the code** for commands as well: the command writes its own id, and neither the daemon it asks nor the program it starts gets it. -/
theorem C129_false_command (own fresh : String) (daemonLog : Logger) (other : String) :
    field [("taskid", own)] commandLog "taskid" = some own ∧
    programField (sourceLog commandLog) fresh "taskid" = some fresh ∧
    peerField daemonLog (commandHeader commandLog fresh) other "sub_taskid" = some fresh := by
  refine ⟨rfl, rfl, ?_⟩
  unfold peerField field
  rw [Dict.get?_set_ne _ _ (by decide), Dict.get?_set_self]
  rfl

/-- A job is configured, runs, is configured again while it runs, and runs again. -/
def exRuns : List Ev := [.configure, .pass "AAAA", .configure, .pass "BBBB"]

/-- The theorems applied to it. -/
example := C129_daemon_partial "vm" [("subsystem", "daemon")] exRuns "BBBB" rfl
example : peerField [("subsystem", "daemon")] ((Job.new "vm" []).steps exRuns).taskid "CCCC" "sub_taskid" = some "BBBB" :=
  C129_peers_partial "vm" [] [("subsystem", "daemon")] exRuns "BBBB" "CCCC" rfl
example : ∃ s, ((Job.new "vm" [("subsystem", "daemon")]).steps exRuns).source = some s ∧ programField s.log "DDDD" "taskid" = some "DDDD" :=
  ⟨_, rfl, (C129_false_program "vm" exRuns "DDDD" _ rfl).2⟩
example := C129_false_command "AAAA" "BBBB" [("subsystem", "daemon")] "CCCC"

end Verif.TaskId
