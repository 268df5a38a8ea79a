import Verif.Spec.JobDir
import Verif.Props.Reload
import Verif.Props.BackupRuns
/-!
# C127: a job whose directory was deleted
-/
namespace Verif.JobDir
open Verif Verif.Repo Verif.Rbd Verif.Backup Verif.Spec

/-! ## What a reload does to one job -/

theorem readSchedules_jobs (old : Dict String Nat) : ∀ (l : List (String × String)) (acc : Dict String Nat) (d : Reload.Daemon),
    (Reload.readSchedules old l acc d).jobs = d.jobs
  | [], _, _ => rfl
  | (name, text) :: rest, acc, d => by
    unfold Reload.readSchedules
    split <;> rw [readSchedules_jobs old rest]

theorem restart_other {fails : String → Bool} {d : Reload.Daemon} {name n : String} (hne : n ≠ name) (c : Reload.JobCfg) (j : Reload.Job) :
    (Reload.restart fails d name c j).2.jobs.get? n = d.jobs.get? n := by
  have hs : (Reload.stop d j).1.jobs = d.jobs := by unfold Reload.stop; split <;> rfl
  unfold Reload.restart Reload.start
  split
  · show ((Reload.stop d j).1.jobs.set name _).get? n = _
    rw [Dict.get?_set_ne _ _ hne, hs]
  · split
    · show ((Reload.stop d j).1.jobs.set name _).get? n = _
      rw [Dict.get?_set_ne _ _ hne, hs]
    · show ((Reload.stop d j).1.jobs.set name _).get? n = _
      rw [Dict.get?_set_ne _ _ hne, hs]

theorem updateJobs_keeps {fails : String → Bool} {n : String} {j : Reload.Job} : ∀ (l : List (String × Reload.JobCfg)) (d : Reload.Daemon),
    d.jobs.get? n = some j → (∀ c, (n, c) ∈ l → j.lastConfig = some c) → (Reload.updateJobs fails l d).2.jobs.get? n = some j
  | [], _, h, _ => h
  | (name, c) :: rest, d, h, hl => by
    unfold Reload.updateJobs
    dsimp only
    split
    · rename_i hne
      have hnn : n ≠ name := by
        intro he
        subst he
        rw [h] at hne
        exact hne (hl c (List.mem_cons_self ..)).symm
      have ho := restart_other (fails := fails) (d := d) hnn c ((d.jobs.get? name).getD Reload.Job.new)
      generalize hg : Reload.restart fails d name c ((d.jobs.get? name).getD Reload.Job.new) = g at *
      obtain ⟨g1, g2⟩ := g
      cases g1 with
      | error e => exact ho.trans h
      | ok u => exact updateJobs_keeps rest g2 (ho.trans h) (fun c' hc' => hl c' (List.mem_cons_of_mem _ hc'))
    · exact updateJobs_keeps rest d h (fun c' hc' => hl c' (List.mem_cons_of_mem _ hc'))

/-- A job whose configuration is the one it has is not touched, even if something raises. -/
theorem reload_keeps {fails : String → Bool} {entries : Reload.Entries} {d : Reload.Daemon} {cfg : Reload.Config} (hn : cfg.jobs.keys.Nodup)
    {n : String} {j : Reload.Job} {c : Reload.JobCfg} (hj : d.jobs.get? n = some j) (hl : j.lastConfig = some c) (hc : cfg.jobs.get? n = some c) :
    (Reload.reload fails entries d cfg).2.jobs.get? n = some j := by
  have h1 := updateJobs_keeps (fails := fails) cfg.jobs (Reload.readSchedules d.schedules cfg.schedules [] d)
    (by rw [readSchedules_jobs]; exact hj) (n := n) (j := j)
    (fun c' hc' => by rw [Dict.get?_of_mem hn hc'] at hc; rw [hl, hc])
  unfold Reload.reload
  generalize Reload.updateJobs fails cfg.jobs (Reload.readSchedules d.schedules cfg.schedules [] d) = g at *
  obtain ⟨g1, g2⟩ := g
  cases g1 with
  | error e => exact h1
  | ok u =>
    show (Reload.deleteJobs cfg.jobs g2.jobs g2).jobs.get? n = some j
    rw [(Reload.deleteJobs_spec cfg.jobs g2.jobs g2).2.2.2.2.1 n, if_neg (by rintro ⟨h2, _⟩; rw [Dict.has, hc] at h2; cases h2)]
    exact h1

/-! ## A directory without `config` -/

/-- The directory of a job that is configured as `c` and was not configured again since it was deleted. -/
structure Lost (n : String) (c : Reload.JobCfg) (h : Host) : Prop where
  job : h.daemon = none ∨ Has h n c
  config : (h.places n).config = none
  named : Named (h.places n).sys.src.repo.files
  none : ∀ u r, onDisk (h.places n).sys.src.repo.files u = some r → r.server = "" → r.clean = false

theorem set_self (h : Host) (n : String) (p : Place) : (h.set n p).places n = p := if_pos rfl

theorem set_ne (h : Host) {n m : String} (p : Place) (hne : n ≠ m) : (h.set m p).places n = h.places n := if_neg hne

theorem writeInfo_none {files : Dict String RevFile} (hn : Named files)
    (h : ∀ u r, onDisk files u = some r → r.server = "" → r.clean = false) {r : Rev} (hr : r.server = "" → r.clean = false) :
    Named (files.set r.uuid ⟨false, r⟩) ∧ ∀ u x, onDisk (files.set r.uuid ⟨false, r⟩) u = some x → x.server = "" → x.clean = false := by
  refine ⟨hn.set r, fun u x hx hs => ?_⟩
  rw [onDisk_set] at hx
  split at hx
  · cases hx; exact hr hs
  · exact h u x hx hs

theorem created_none {s : Sys} (hn : Named s.src.repo.files)
    (h : ∀ u r, onDisk s.src.repo.files u = some r → r.server = "" → r.clean = false) (x : Run) :
    Named (x.created s).src.repo.files ∧ ∀ u r, onDisk (x.created s).src.repo.files u = some r → r.server = "" → r.clean = false := by
  have hsync : Sync s.connect.src.repo := Sync.scan hn
  obtain ⟨c1, c2⟩ := clean_complete hsync
  refine writeInfo_none (files := s.connect.src.repo.clean.files) (r := newRev x.uuid x.ts x.tags) c1.named ?_
    (fun _ => by simp [newRev, Rev.clean, Dict.has, Dict.get?])
  intro u r hr hs
  have hu := onDisk_uuid c1.named hr
  subst hu
  obtain ⟨h1, _⟩ := (c2 r).1 ((c1.mem r).2 hr)
  exact h _ r ((hsync.mem r).1 h1) hs

/-- Without `config`, no run succeeds. -/
theorem run_lost {env : Env} {h : Host} {n : String} (hc : (h.places n).config = none) (x : Run) : (h.run env n x).1 = false := by
  unfold Host.run
  split
  · rw [hc]
  · rfl

theorem apply_lost {n : String} {c : Reload.JobCfg} {h : Host} (hl : Lost n c h) {d : Reload.Daemon} (hd : h.daemon = some d) (fails : String → Bool)
    (entries : Reload.Entries) (cfg : Reload.Config) (hn : cfg.jobs.keys.Nodup) (hc : cfg.jobs.get? n = some c) : Lost n c (h.apply fails entries d cfg) := by
  obtain ⟨d', j, h1, h2, h3, h4⟩ : Has h n c := by
    rcases hl.job with hj | hj
    · rw [hd] at hj; cases hj
    · exact hj
  rw [hd] at h1
  cases h1
  have hk := reload_keeps (fails := fails) (entries := entries) hn h2 h3 hc
  have hp : (h.apply fails entries d cfg).places n = h.places n := by
    show storeAll d.jobs _ h.places n = _
    unfold storeAll
    rw [hk]
    dsimp only
    rw [h2]
    unfold written
    rw [h3]
    simp [h3, Place.store]
  refine ⟨?_, by rw [hp]; exact hl.config, by rw [hp]; exact hl.named, by rw [hp]; exact hl.none⟩
  unfold Host.apply Has
  generalize Reload.reload fails entries d cfg = g at *
  obtain ⟨g1, g2⟩ := g
  cases g1 with
  | error e => exact .inl rfl
  | ok u => exact .inr ⟨g2, j, rfl, hk, h3, h4⟩

theorem Lost.step {env : Env} {n : String} {c : Reload.JobCfg} {h : Host} (hl : Lost n c h) (e : Ev) (hp : Possible env h e) (hs : Same n c e) :
    Lost n c (JobDir.step env h e) := by
  have put : ∀ (m : String) (p : Place), (m = n → p.config = Option.none ∧ Named p.sys.src.repo.files ∧
      ∀ u r, onDisk p.sys.src.repo.files u = some r → r.server = "" → r.clean = false) → Lost n c (h.set m p) := by
    intro m p hm
    by_cases he : m = n
    · obtain ⟨h1, h2, h3⟩ := hm he
      subst he
      exact ⟨hl.job, by rw [set_self]; exact h1, by rw [set_self]; exact h2, by rw [set_self]; exact h3⟩
    · have := set_ne h p (Ne.symm he)
      exact ⟨hl.job, by rw [this]; exact hl.config, by rw [this]; exact hl.named, by rw [this]; exact hl.none⟩
  cases e with
  | start fails entries cfg => exact absurd hs (by simp [Same])
  | reload fails entries cfg =>
    show Lost n c (h.reload fails entries cfg)
    unfold Host.reload
    split
    · exact hl
    · rename_i d hd
      exact apply_lost hl hd fails entries cfg hp hs
  | ends => exact ⟨.inl rfl, hl.config, hl.named, hl.none⟩
  | plan m =>
    show Lost n c (h.plan m)
    unfold Host.plan
    split
    · exact put m _ (fun he => by subst he; exact ⟨hl.config, hl.named, hl.none⟩)
    · exact hl
  | run m x =>
    show Lost n c (h.run env m x).2
    unfold Host.run
    split
    · split
      · refine put m _ (fun he => ?_)
        subst he
        have := created_none hl.named hl.none x
        exact ⟨hl.config, this.1, this.2⟩
      · rename_i y hy
        refine put m _ (fun he => ?_)
        subst he
        rw [hl.config] at hy
        cases hy
    · exact hl
  | other m s =>
    refine put m _ (fun he => ?_)
    subst he
    exact absurd hl.config hp.1
  | guest m image => exact put m _ (fun he => by subst he; exact ⟨hl.config, hl.named, hl.none⟩)
  | remote m r =>
    refine put m _ (fun he => ?_)
    subst he
    have := writeInfo_none hl.named hl.none (r := r) (fun h => absurd h hp)
    exact ⟨hl.config, this.1, this.2⟩
  | delete m =>
    refine put m _ (fun he => ⟨rfl, ⟨by simp [Place.delete, Dict.keys], fun n f hf => by cases hf⟩, fun u r hr => by cases hr⟩)

theorem steps_append (env : Env) (h : Host) (a b : List Ev) : steps env h (a ++ b) = steps env (steps env h a) b := List.foldl_append ..

theorem happens_append {env : Env} : ∀ {h : Host} {a b : List Ev}, Happens env h (a ++ b) ↔ Happens env h a ∧ Happens env (steps env h a) b
  | _, [], _ => ⟨fun h => ⟨trivial, h⟩, fun h => h.2⟩
  | h, e :: a, b => by
    show (_ ∧ Happens env _ (a ++ b)) ↔ (_ ∧ Happens env _ a) ∧ _
    rw [happens_append, and_assoc]
    rfl

theorem Lost.steps {env : Env} {n : String} {c : Reload.JobCfg} : ∀ (es : List Ev) {h : Host}, Lost n c h → Happens env h es → (∀ e ∈ es, Same n c e) →
    Lost n c (JobDir.steps env h es)
  | [], _, hl, _, _ => hl
  | e :: es, _, hl, hh, hs =>
    Lost.steps es (hl.step e hh.1 (hs e (List.mem_cons_self ..))) hh.2 (fun e' he' => hs e' (List.mem_cons_of_mem _ he'))

/-- **C127 is false of the code** The directory of a job is deleted while the daemon is running.  Whatever happens then, as long as the daemon is
not started again and does not find another configuration of the job: no run of the job succeeds, and there is no backup in its directory. -/
theorem C127_false_until_configured (env : Env) (h : Host) (n : String) (c : Reload.JobCfg) (hc : Has h n c) (es : List Ev)
    (hh : Happens env (step env h (.delete n)) es) (hs : ∀ e ∈ es, Same n c e) :
    (∀ x, ((steps env (step env h (.delete n)) es).run env n x).1 = false) ∧ ¬ HasBackup (steps env (step env h (.delete n)) es) n := by
  have h0 : Lost n c (step env h (.delete n)) := by
    show Lost n c (h.set n (h.places n).delete)
    refine ⟨.inr hc, ?_, ?_, ?_⟩ <;> rw [set_self]
    · rfl
    · exact ⟨by simp [Place.delete, Dict.keys], fun n f hf => by cases hf⟩
    · intro u r hr; cases hr
  have hl := h0.steps es hh hs
  refine ⟨fun x => run_lost hl.config x, ?_⟩
  rintro ⟨u, r, h1, h2, h3⟩
  rw [hl.none u r h1 h2] at h3
  cases h3


/-! ## A job that was configured since -/

/-- The event configures the job: the daemon is started with it, or finds a configuration of the job that it does not have yet. -/
def Takes (h : Host) (n : String) : Ev → Prop
  | .start _ _ cfg => h.daemon = none ∧ ∃ c, cfg.jobs.get? n = some c
  | .reload _ _ cfg => ∃ d c, h.daemon = some d ∧ cfg.jobs.get? n = some c ∧ ∀ j, d.jobs.get? n = some j → j.lastConfig ≠ some c
  | _ => False

/-- The state of a daemon is that of a daemon. -/
def DaemonOK (h : Host) : Prop := ∀ d, h.daemon = some d → Reload.WF d

theorem apply_daemon {h : Host} {fails : String → Bool} {entries : Reload.Entries} {d d' : Reload.Daemon} {cfg : Reload.Config}
    (he : (h.apply fails entries d cfg).daemon = some d') : Reload.reload fails entries d cfg = (.ok (), d') := by
  unfold Host.apply at he
  dsimp only at he
  generalize Reload.reload fails entries d cfg = g at *
  obtain ⟨g1, g2⟩ := g
  cases g1 with
  | error e => cases he
  | ok u => cases he; rfl

theorem apply_ok {h : Host} {fails : String → Bool} {entries : Reload.Entries} {d : Reload.Daemon} {cfg : Reload.Config} (hd : Reload.WF d)
    (hn : cfg.jobs.keys.Nodup) : DaemonOK (h.apply fails entries d cfg) := fun d' he =>
  (Reload.reload_facts hd hn (apply_daemon he)).1

theorem DaemonOK.step {env : Env} {h : Host} (hw : DaemonOK h) (e : Ev) (hp : Possible env h e) : DaemonOK (JobDir.step env h e) := by
  cases e with
  | start fails entries cfg =>
    show DaemonOK (h.start fails entries cfg)
    unfold Host.start
    split
    · exact apply_ok Reload.WF.init hp
    · exact hw
  | reload fails entries cfg =>
    show DaemonOK (h.reload fails entries cfg)
    unfold Host.reload
    split
    · exact hw
    · rename_i d hd
      exact apply_ok (hw d hd) hp
  | ends => intro d hd; cases hd
  | plan m =>
    show DaemonOK (h.plan m)
    unfold Host.plan
    split <;> exact hw
  | run m x =>
    show DaemonOK (h.run env m x).2
    unfold Host.run
    split
    · split <;> exact hw
    · exact hw
  | other m s => exact hw
  | guest m image => exact hw
  | remote m r => exact hw
  | delete m => exact hw

/-- There is a `config` file. -/
def Kept (h : Host) (n : String) : Prop := (h.places n).there = true ∧ (h.places n).config ≠ none

theorem apply_kept {h : Host} {n : String} {fails : String → Bool} {entries : Reload.Entries} {d : Reload.Daemon} {cfg : Reload.Config}
    (hk : Kept h n) : Kept (h.apply fails entries d cfg) n := by
  show (storeAll _ _ h.places n).there = true ∧ (storeAll _ _ h.places n).config ≠ none
  unfold storeAll
  split
  · exact hk
  · unfold Place.store
    split
    · exact hk
    · exact ⟨rfl, by simp⟩

theorem apply_takes {h : Host} {n : String} {fails : String → Bool} {entries : Reload.Entries} {d d' : Reload.Daemon} {cfg : Reload.Config}
    (hd : Reload.WF d) (hn : cfg.jobs.keys.Nodup) {c : Reload.JobCfg} (hc : cfg.jobs.get? n = some c)
    (hne : ∀ j, d.jobs.get? n = some j → j.lastConfig ≠ some c) (he : (h.apply fails entries d cfg).daemon = some d') :
    Kept (h.apply fails entries d cfg) n := by
  have hr := apply_daemon he
  obtain ⟨⟨j', t, h1, h2, _⟩, _⟩ := (Reload.C54_reload fails entries d d' cfg hd hn hr).2.2.1 n c hc hne
  show (storeAll d.jobs _ h.places n).there = true ∧ (storeAll d.jobs _ h.places n).config ≠ none
  have hw : written (d.jobs.get? n) j' = some ⟨j'.stored, c.source⟩ := by
    unfold written
    rw [h2]
    dsimp only
    rw [if_neg]
    intro hb
    cases hj : d.jobs.get? n with
    | none => rw [hj] at hb; cases hb
    | some j => rw [hj] at hb; exact hne j hj hb
  unfold storeAll
  rw [hr]
  dsimp only
  rw [h1]
  dsimp only
  rw [hw]
  exact ⟨rfl, by simp [Place.store]⟩

theorem Kept.step {env : Env} {n : String} {h : Host} (hk : Kept h n) (e : Ev) (hd : e ≠ .delete n) : Kept (JobDir.step env h e) n := by
  have put : ∀ (m : String) (p : Place), (m = n → p.there = true ∧ p.config ≠ none) → Kept (h.set m p) n := by
    intro m p hm
    unfold Kept
    by_cases he : m = n
    · subst he
      rw [set_self]
      exact hm rfl
    · rw [set_ne h p (Ne.symm he)]
      exact hk
  cases e with
  | start fails entries cfg =>
    show Kept (h.start fails entries cfg) n
    unfold Host.start
    split
    · exact apply_kept hk
    · exact hk
  | reload fails entries cfg =>
    show Kept (h.reload fails entries cfg) n
    unfold Host.reload
    split
    · exact hk
    · exact apply_kept hk
  | ends => exact hk
  | plan m =>
    show Kept (h.plan m) n
    unfold Host.plan
    split
    · exact put m _ (fun he => by subst he; exact ⟨rfl, hk.2⟩)
    · exact hk
  | run m x =>
    show Kept (h.run env m x).2 n
    unfold Host.run
    split
    · split
      · exact put m _ (fun he => by subst he; exact hk)
      · exact put m _ (fun he => by subst he; exact hk)
    · exact hk
  | other m s => exact put m _ (fun he => by subst he; exact hk)
  | guest m image => exact put m _ (fun he => by subst he; exact hk)
  | remote m r => exact put m _ (fun he => by subst he; exact hk)
  | delete m => exact put m _ (fun he => absurd (he ▸ rfl) hd)

/-! ### The content of the directory -/

theorem created_log (s : Sys) (x : Run) : s.src.w.log ⊆ (x.created s).src.w.log := List.Subset.refl _

/-- A run in a directory with `config`. -/
theorem run_kept {env : Env} {h : Host} {n : String} (hr : h.running n = true) (ht : (h.places n).there = true) {st : Stored}
    (hc : (h.places n).config = some st) (x : Run) : h.run env n x =
      ((runBackup env x.alwaysFull x.rbd x.uuid x.ts x.tags (h.places n).sys.connect).1 == 0,
        h.set n { h.places n with sys := (runBackup env x.alwaysFull x.rbd x.uuid x.ts x.tags (h.places n).sys.connect).2 }) := by
  unfold Host.run
  rw [hr, ht, hc]
  exact if_pos rfl

/-- The logs (ghosts) only grow. -/
theorem step_log {env : Env} (h : Host) (n : String) (e : Ev) (hp : Possible env h e) :
    (h.places n).sys.src.w.log ⊆ ((step env h e).places n).sys.src.w.log := by
  have put : ∀ (m : String) (p : Place), (m = n → (h.places n).sys.src.w.log ⊆ p.sys.src.w.log) →
      (h.places n).sys.src.w.log ⊆ ((h.set m p).places n).sys.src.w.log := by
    intro m p hm
    by_cases he : m = n
    · have := hm he
      subst he
      rw [set_self]
      exact this
    · rw [set_ne h p (Ne.symm he)]
      exact List.Subset.refl _
  have app : ∀ (fails : String → Bool) (entries : Reload.Entries) (d : Reload.Daemon) (cfg : Reload.Config),
      (h.places n).sys.src.w.log ⊆ ((h.apply fails entries d cfg).places n).sys.src.w.log := by
    intro fails entries d cfg
    show _ ⊆ (storeAll _ _ h.places n).sys.src.w.log
    unfold storeAll
    split
    · exact List.Subset.refl _
    · unfold Place.store
      split <;> exact List.Subset.refl _
  cases e with
  | start fails entries cfg =>
    show _ ⊆ ((h.start fails entries cfg).places n).sys.src.w.log
    unfold Host.start
    split
    · exact app ..
    · exact List.Subset.refl _
  | reload fails entries cfg =>
    show _ ⊆ ((h.reload fails entries cfg).places n).sys.src.w.log
    unfold Host.reload
    split
    · exact List.Subset.refl _
    · exact app ..
  | ends => exact List.Subset.refl _
  | plan m =>
    show _ ⊆ ((h.plan m).places n).sys.src.w.log
    unfold Host.plan
    split
    · exact put m _ (fun he => by subst he; exact List.Subset.refl _)
    · exact List.Subset.refl _
  | run m x =>
    show _ ⊆ ((h.run env m x).2.places n).sys.src.w.log
    unfold Host.run
    split
    · split
      · exact put m _ (fun he => by subst he; exact created_log (h.places m).sys x)
      · exact put m _ (fun he => by subst he; exact runBackup_log env x.alwaysFull x.rbd x.uuid x.ts x.tags (h.places m).sys.connect)
    · exact List.Subset.refl _
  | other m s => exact put m _ (fun he => by subst he; exact hp.2.log)
  | guest m image => exact put m _ (fun he => by subst he; exact List.Subset.refl _)
  | remote m r => exact put m _ (fun he => by subst he; exact List.Subset.refl _)
  | delete m => exact put m _ (fun he => by subst he; exact List.Subset.refl _)

/-- The directory of the job was made from an empty one by what may happen to a repository. -/
def Made (env : Env) (h : Host) (n : String) : Prop := ∃ s0, Initial s0 ∧ Steps env s0 (h.places n).sys

theorem Made.step {env : Env} {L : List Bytes} (hL : CollFree env.H L) {h : Host} {n : String} (hm : Made env h n)
    (hlog : (h.places n).sys.src.w.log ⊆ L) (e : Ev) (hp : Possible env h e) : Made env (JobDir.step env h e) n := by
  obtain ⟨s0, h0, hs⟩ := hm
  have put : ∀ (m : String) (p : Place), (m = n → ∃ s0, Initial s0 ∧ Steps env s0 p.sys) → Made env (h.set m p) n := by
    intro m p hm
    unfold Made
    by_cases he : m = n
    · subst he
      rw [set_self]
      exact hm rfl
    · rw [set_ne h p (Ne.symm he)]
      exact ⟨s0, h0, hs⟩
  have app : ∀ (fails : String → Bool) (entries : Reload.Entries) (d : Reload.Daemon) (cfg : Reload.Config),
      Made env (h.apply fails entries d cfg) n := by
    intro fails entries d cfg
    refine ⟨s0, h0, ?_⟩
    have : ((h.apply fails entries d cfg).places n).sys = (h.places n).sys := by
      show (storeAll _ _ h.places n).sys = _
      unfold storeAll
      split
      · rfl
      · unfold Place.store
        split <;> rfl
    rw [this]
    exact hs
  cases e with
  | start fails entries cfg =>
    show Made env (h.start fails entries cfg) n
    unfold Host.start
    split
    · exact app ..
    · exact ⟨s0, h0, hs⟩
  | reload fails entries cfg =>
    show Made env (h.reload fails entries cfg) n
    unfold Host.reload
    split
    · exact ⟨s0, h0, hs⟩
    · exact app ..
  | ends => exact ⟨s0, h0, hs⟩
  | plan m =>
    show Made env (h.plan m) n
    unfold Host.plan
    split
    · exact put m _ (fun he => by subst he; exact ⟨s0, h0, hs⟩)
    · exact ⟨s0, h0, hs⟩
  | run m x =>
    show Made env (h.run env m x).2 n
    unfold Host.run
    split
    · split
      · exact put m _ (fun he => by subst he; exact ⟨s0, h0, .cons hs (.killed _ _ x.alwaysFull x.rbd x.uuid x.ts x.tags hp.1 hp.2 .created)⟩)
      · exact put m _ (fun he => by subst he; exact ⟨s0, h0, .cons hs (.backup _ x.alwaysFull x.rbd x.uuid x.ts x.tags hp.1 hp.2)⟩)
    · exact ⟨s0, h0, hs⟩
  | other m s => exact put m _ (fun he => by subst he; exact ⟨s0, h0, .cons hs hp.2⟩)
  | guest m image => exact put m _ (fun he => by subst he; exact ⟨s0, h0, .cons hs (.guest _ image)⟩)
  | remote m r => exact put m _ (fun he => by subst he; exact ⟨s0, h0, .cons hs (.remote _ r hp)⟩)
  | delete m =>
    refine put m _ (fun he => ?_)
    subst he
    exact ⟨(h.places m).delete.sys, ⟨rfl, rfl, rfl, rfl, ((Good.initial (env := env) h0).steps hL hs hlog).snaps⟩, .nil _⟩

theorem steps_log {env : Env} (n : String) : ∀ (es : List Ev) (h : Host), Happens env h es →
    (h.places n).sys.src.w.log ⊆ ((steps env h es).places n).sys.src.w.log
  | [], _, _ => List.Subset.refl _
  | e :: es, h, hh => List.Subset.trans (step_log h n e hh.1) (steps_log n es _ hh.2)

theorem Made.steps {env : Env} {L : List Bytes} (hL : CollFree env.H L) {n : String} : ∀ (es : List Ev) {h : Host}, Made env h n →
    Happens env h es → ((JobDir.steps env h es).places n).sys.src.w.log ⊆ L → Made env (JobDir.steps env h es) n
  | [], _, hm, _, _ => hm
  | e :: es, h, hm, hh, hlog =>
    Made.steps hL es (hm.step hL (List.Subset.trans (steps_log n (e :: es) h hh) hlog) e hh.1) hh.2 hlog

theorem DaemonOK.steps {env : Env} : ∀ (es : List Ev) {h : Host}, DaemonOK h → Happens env h es → DaemonOK (JobDir.steps env h es)
  | [], _, hw, _ => hw
  | e :: es, _, hw, hh => DaemonOK.steps es (hw.step e hh.1) hh.2

theorem Kept.steps {env : Env} {n : String} : ∀ (es : List Ev) {h : Host}, Kept h n → (∀ e ∈ es, e ≠ .delete n) → Kept (JobDir.steps env h es) n
  | [], _, hk, _ => hk
  | e :: es, _, hk, hd => Kept.steps es (hk.step e (hd e (List.mem_cons_self ..))) (fun e' he' => hd e' (List.mem_cons_of_mem _ he'))

/-- **C127 (partial)** On any host, after any history, with any deletions of directories: if the daemon has configured the job since its directory was
last deleted (it was started, or found another configuration of the job), and the job is running, the next run during which `rbd` works succeeds, and
its revision restores to the image.  Without the condition this is false of the code: `C127_false_until_configured`. -/
theorem C127_starts_over_partial (env : Env) (h0 : Host) (hb : Bare h0) (n : String) (es1 : List Ev) (e : Ev) (es2 : List Ev)
    (hh : Happens env h0 (es1 ++ e :: es2)) (ht : Takes (steps env h0 es1) n e) (hok : (step env (steps env h0 es1) e).daemon ≠ none)
    (hd : ∀ e' ∈ es2, e' ≠ .delete n) (hr : (steps env h0 (es1 ++ e :: es2)).running n = true) (x : Run)
    (hu : Fresh ((steps env h0 (es1 ++ e :: es2)).places n).sys x.uuid)
    (hf : Works x.rbd ((steps env h0 (es1 ++ e :: es2)).places n).sys.ceph.snaps x.uuid ((steps env h0 (es1 ++ e :: es2)).places n).sys.ceph.image env.cs)
    (hcoll : CollFree env.H (((steps env h0 (es1 ++ e :: es2)).run env n x).2.places n).sys.src.w.log) :
    ((steps env h0 (es1 ++ e :: es2)).run env n x).1 = true ∧
    ∃ r, onDisk (((steps env h0 (es1 ++ e :: es2)).run env n x).2.places n).sys.src.repo.files x.uuid = some r ∧ r.clean = true ∧
      ∀ target, Files.restore env (((steps env h0 (es1 ++ e :: es2)).run env n x).2.places n).sys.connect.src.w r target =
        (.ok (), some ((steps env h0 (es1 ++ e :: es2)).places n).sys.ceph.image) := by
  have hk : Kept (steps env h0 (es1 ++ e :: es2)) n := by
    rw [steps_append]
    refine Kept.steps (env := env) es2 (h := step env (steps env h0 es1) e) ?_ hd
    obtain ⟨hh1, hh2⟩ := happens_append.1 hh
    have hw : DaemonOK (steps env h0 es1) := DaemonOK.steps es1 (fun d hd => by rw [hb.daemon] at hd; cases hd) hh1
    obtain ⟨d', hd'⟩ := Option.ne_none_iff_exists'.1 hok
    cases e with
    | start fails entries cfg =>
      obtain ⟨t1, c, t2⟩ := ht
      change ((steps env h0 es1).start fails entries cfg).daemon = _ at hd'
      show Kept ((steps env h0 es1).start fails entries cfg) n
      unfold Host.start at hd' ⊢
      rw [t1] at hd' ⊢
      exact apply_takes Reload.WF.init hh2.1 t2 (fun j hj => by cases hj) hd'
    | reload fails entries cfg =>
      obtain ⟨d, c, t1, t2, t3⟩ := ht
      change ((steps env h0 es1).reload fails entries cfg).daemon = _ at hd'
      show Kept ((steps env h0 es1).reload fails entries cfg) n
      unfold Host.reload at hd' ⊢
      rw [t1] at hd' ⊢
      exact apply_takes (hw d t1) hh2.1 t2 t3 hd'
    | _ => exact absurd ht (by simp [Takes])
  obtain ⟨st, hst⟩ := Option.ne_none_iff_exists'.1 hk.2
  rw [run_kept hr hk.1 hst] at hcoll ⊢
  rw [set_self] at hcoll ⊢
  obtain ⟨s0, m1, m2⟩ := Made.steps hcoll (es1 ++ e :: es2) (h := h0) (n := n) ⟨_, hb.sys n, .nil _⟩ hh
    (runBackup_log env x.alwaysFull x.rbd x.uuid x.ts x.tags ((steps env h0 (es1 ++ e :: es2)).places n).sys.connect)
  obtain ⟨b1, r, b2, b3, b4⟩ := C13_backup_succeeds env s0 _ m1 m2 x.alwaysFull x.rbd x.uuid x.ts x.tags hu hf hcoll
  exact ⟨by rw [b1]; rfl, r, b2, b3, b4⟩


/-! ### A concrete host

One job.  It makes a backup, its directory is deleted; after that it cannot make a backup until the daemon is started again. -/

/-- A host with images, and without directories. -/
def exHost : Host := ⟨none, fun _ => ⟨false, none, exNew⟩⟩

theorem exHost_bare : Bare exHost := ⟨rfl, fun _ => ⟨rfl, rfl⟩, fun _ => exNew_initial⟩

/-- `rbd` works. -/
def exRun (uuid : String) (ts : Int) : Run := ⟨false, idealRbd [0, 0, 0, 0, 1, 1, 1, 1] [0], uuid, ts, {"daily"}⟩

theorem exRun_works {h : Host} {n : String} (hi : (h.places n).sys.ceph.image = [0, 0, 0, 0, 1, 1, 1, 1]) (uuid : String) (ts : Int) :
    Works (exRun uuid ts).rbd (h.places n).sys.ceph.snaps (exRun uuid ts).uuid (h.places n).sys.ceph.image Test.env.cs := by
  rw [hi]
  exact idealRbd_works [0, 0, 0, 0, 1, 1, 1, 1] (by decide) [0] 1 4 (validSample (by decide)) _ _

/-- The daemon is started. -/
def exStart : Ev := .start (fun _ => false) [] (Reload.exCfg "daily: keep 9")

/-- The first backup. -/
def exEarly : List Ev := [exStart, .plan "vm", .run "vm" (exRun "a" 10)]

/-- What happens after the directory is deleted: a run, a reload, and the beginning of another run. -/
def exLater : List Ev := [.plan "vm", .run "vm" (exRun "b" 20), .reload (fun _ => false) [] (Reload.exCfg "daily: keep 30"), .plan "vm"]

theorem exCfg_nodup (t : String) : (Reload.exCfg t).jobs.keys.Nodup := by simp [Reload.exCfg, Dict.keys]

theorem exEarly_happens : Happens Test.env exHost exEarly := by
  refine ⟨exCfg_nodup _, trivial, ⟨⟨by decide +kernel, by decide +kernel, by decide +kernel⟩, (exRun_works (by decide +kernel) "a" 10).faithful⟩, trivial⟩

theorem exLater_happens : Happens Test.env (step Test.env (steps Test.env exHost exEarly) (.delete "vm")) exLater := by
  refine ⟨trivial, ⟨⟨by decide +kernel, by decide +kernel, by decide +kernel⟩, (exRun_works (by decide +kernel) "b" 20).faithful⟩, exCfg_nodup _, trivial, trivial⟩

theorem exEarly_has : Has (steps Test.env exHost exEarly) "vm" ⟨"default", "rbd/vm"⟩ := ⟨_, _, rfl, rfl, rfl, by simp⟩

/-- **C127 is false of the code** (a run): the backup before the deletion succeeds, those after it fail although `rbd` works; after the daemon has been started
again, they succeed. -/
theorem C127_false_deleted : Bare exHost ∧ Happens Test.env exHost (exEarly ++ .delete "vm" :: exLater) ∧
    ((steps Test.env exHost [exStart, .plan "vm"]).run Test.env "vm" (exRun "a" 10)).1 = true ∧
    (steps Test.env exHost (exEarly ++ .delete "vm" :: exLater)).running "vm" = true ∧
    Works (exRun "c" 30).rbd ((steps Test.env exHost (exEarly ++ .delete "vm" :: exLater)).places "vm").sys.ceph.snaps (exRun "c" 30).uuid
      ((steps Test.env exHost (exEarly ++ .delete "vm" :: exLater)).places "vm").sys.ceph.image Test.env.cs ∧
    ((steps Test.env exHost (exEarly ++ .delete "vm" :: exLater)).run Test.env "vm" (exRun "c" 30)).1 = false ∧
    ((steps Test.env exHost (exEarly ++ .delete "vm" :: exLater ++ [.ends, exStart])).run Test.env "vm" (exRun "c" 30)).1 = true := by
  refine ⟨exHost_bare, happens_append.2 ⟨exEarly_happens, trivial, exLater_happens⟩, by decide +kernel, by decide +kernel, exRun_works (by decide +kernel) "c" 30,
    by decide +kernel, by decide +kernel⟩

/-- C127_false_until_configured applied to it. -/
example : ¬ HasBackup (steps Test.env (step Test.env (steps Test.env exHost exEarly) (.delete "vm")) exLater) "vm" :=
  (C127_false_until_configured Test.env _ "vm" ⟨"default", "rbd/vm"⟩ exEarly_has exLater exLater_happens (by
    intro e he
    simp only [exLater, List.mem_cons, List.not_mem_nil, or_false] at he
    rcases he with rfl | rfl | rfl | rfl
    · trivial
    · trivial
    · rfl
    · trivial)).2

theorem exEnded_happens : Happens Test.env exHost (exEarly ++ .delete "vm" :: exLater ++ [.ends]) :=
  happens_append.2 ⟨happens_append.2 ⟨exEarly_happens, trivial, exLater_happens⟩, ⟨trivial, trivial⟩⟩

/-- C127_starts_over_partial: the daemon is started again. -/
example : ((steps Test.env exHost (exEarly ++ .delete "vm" :: exLater ++ [.ends] ++ exStart :: [.plan "vm"])).run Test.env "vm" (exRun "c" 30)).1 = true :=
  (C127_starts_over_partial Test.env exHost exHost_bare "vm" (exEarly ++ .delete "vm" :: exLater ++ [.ends]) exStart [.plan "vm"]
    (happens_append.2 ⟨exEnded_happens, exCfg_nodup _, trivial, trivial⟩)
    ⟨rfl, _, rfl⟩ (by
      have : (step Test.env (steps Test.env exHost (exEarly ++ .delete "vm" :: exLater ++ [.ends])) exStart).daemon.isSome = true := by decide +kernel
      intro hn
      rw [hn] at this
      cases this)
    (by simp) (by decide +kernel) (exRun "c" 30) ⟨by decide +kernel, by decide +kernel, by decide +kernel⟩ (exRun_works (by decide +kernel) "c" 30)
    (Test.collFree _)).1

end Verif.JobDir
