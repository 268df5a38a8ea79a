import Verif.Model.Reload
/-!
# C54: a reload makes the jobs match the configuration; C63: schedule changes take effect
-/
namespace Verif.Reload
open Verif

/-- Job names are distinct and tasks have been created by the daemon. -/
structure WF (d : Daemon) : Prop where
  nodup : d.jobs.keys.Nodup
  tasks : ∀ n j t, d.jobs.get? n = some j → j.task = some t → t < d.nextTask
  own : ∀ n n' j j' t, d.jobs.get? n = some j → d.jobs.get? n' = some j' → j.task = some t → j'.task = some t → n = n'
  gone : ∀ t ∈ d.cancelled, t < d.nextTask
  live : ∀ n j t, d.jobs.get? n = some j → j.task = some t → t ∉ d.cancelled
  started : ∀ n j, d.jobs.get? n = some j → j.lastConfig ≠ none → j.task ≠ none

theorem WF.init : WF .init := by
  refine ⟨by simp [Daemon.init, Dict.keys], ?_, ?_, ?_, ?_, ?_⟩ <;> simp [Daemon.init]

theorem readSchedules_same (old : Dict String Nat) : ∀ (l : List (String × String)) (acc : Dict String Nat) (d : Daemon),
    (readSchedules old l acc d).jobs = d.jobs ∧ (readSchedules old l acc d).cancelled = d.cancelled ∧
    (readSchedules old l acc d).nextTask = d.nextTask
  | [], acc, d => ⟨rfl, rfl, rfl⟩
  | (name, text) :: rest, acc, d => by
    unfold readSchedules
    split
    · exact readSchedules_same old rest _ _
    · exact readSchedules_same old rest _ _

theorem WF.readSchedules {d : Daemon} (h : WF d) (old : Dict String Nat) (l : List (String × String))
    (acc : Dict String Nat) : WF (readSchedules old l acc d) := by
  obtain ⟨e1, e2, e3⟩ := readSchedules_same old l acc d
  obtain ⟨h1, h2, h3, h4, h5, h6⟩ := h
  constructor <;> simp only [e1, e2, e3] <;> assumption

/-- What a change of one job does. -/
structure Changed (name : String) (c : JobCfg) (d d' : Daemon) : Prop where
  schedules : d'.schedules = d.schedules
  defs : d'.defs = d.defs
  others : ∀ n, n ≠ name → d'.jobs.get? n = d.jobs.get? n
  job : ∃ j' o, d'.jobs.get? name = some j' ∧ j'.lastConfig = some c ∧ j'.task = some d.nextTask ∧
    d.schedules.get? c.schedule = some o ∧ j'.schedule = some o ∧ j'.stored = d.defs.get? o
  next : d'.nextTask = d.nextTask + 1
  cancelled : ∀ t, t ∈ d'.cancelled ↔ t ∈ d.cancelled ∨ ∃ j, d.jobs.get? name = some j ∧ j.task = some t

theorem restart_ok {fails : String → Bool} {d d' : Daemon} {name : String} {c : JobCfg}
    (h : restart fails d name c ((d.jobs.get? name).getD Job.new) = (.ok (), d')) : Changed name c d d' := by
  have hj : ∀ t, ((d.jobs.get? name).getD Job.new).task = some t ↔ ∃ j, d.jobs.get? name = some j ∧ j.task = some t := by
    intro t
    cases d.jobs.get? name <;> simp [Job.new]
  generalize (d.jobs.get? name).getD Job.new = j at h hj
  unfold restart configure stop start at h
  cases ht : j.task with
  | none =>
    rw [ht] at h
    simp only [] at h
    split at h
    · cases h
    · rename_i j' he
      split at he
      · cases he
      · rename_i o ho
        split at he
        · cases he
        · cases he
          simp only [ht] at h
          cases h
          refine ⟨rfl, rfl, fun n hn => Dict.get?_set_ne _ _ hn, ⟨_, o, Dict.get?_set_self _ _ _, rfl, rfl, ho, rfl, rfl⟩, rfl, ?_⟩
          intro t
          rw [← hj t, ht]
          simp
  | some t0 =>
    rw [ht] at h
    simp only [] at h
    split at h
    · cases h
    · rename_i j' he
      split at he
      · cases he
      · rename_i o ho
        split at he
        · cases he
        · cases he
          simp only [ht] at h
          cases h
          refine ⟨rfl, rfl, fun n hn => Dict.get?_set_ne _ _ hn, ⟨_, o, Dict.get?_set_self _ _ _, rfl, rfl, ho, rfl, rfl⟩, rfl, ?_⟩
          intro t
          rw [← hj t, ht]
          simp only [List.mem_cons, Option.some.injEq]
          constructor
          · rintro (rfl | h)
            · exact .inr rfl
            · exact .inl h
          · rintro (h | rfl)
            · exact .inr h
            · exact .inl rfl

theorem restart_keys {fails : String → Bool} {d d' : Daemon} {name : String} {c : JobCfg} {j : Job}
    (h : restart fails d name c j = (.ok (), d')) : ∃ j', d'.jobs = d.jobs.set name j' := by
  have hs : (stop d j).1.jobs = d.jobs := by unfold stop; split <;> rfl
  unfold restart start at h
  split at h
  · cases h
  · split at h
    · cases h
    · cases h
      exact ⟨_, by rw [← hs]⟩

theorem Changed.wf {name : String} {c : JobCfg} {d d' : Daemon} (h : Changed name c d d') (hd : WF d)
    (hk : ∃ j', d'.jobs = d.jobs.set name j') : WF d' := by
  obtain ⟨j', o, hj, hc, ht, _, _, _⟩ := h.job
  refine ⟨?_, ?_, ?_, ?_, ?_, ?_⟩
  · obtain ⟨j'', hk⟩ := hk
    rw [hk]; exact Dict.nodup_set hd.nodup _ _
  · intro n j t hn hjt
    rw [h.next]
    by_cases hnn : n = name
    · subst hnn; rw [hj] at hn; cases hn; rw [ht] at hjt; cases hjt; omega
    · rw [h.others n hnn] at hn
      have := hd.tasks n j t hn hjt; omega
  · intro n n' j1 j2 t h1 h2 t1 t2
    by_cases a : n = name
    · by_cases b : n' = name
      · rw [a, b]
      · subst a
        rw [hj] at h1; cases h1; rw [ht] at t1; cases t1
        rw [h.others n' b] at h2
        have := hd.tasks n' j2 _ h2 t2; omega
    · by_cases b : n' = name
      · subst b
        rw [hj] at h2; cases h2; rw [ht] at t2; cases t2
        rw [h.others n a] at h1
        have := hd.tasks n j1 _ h1 t1; omega
      · rw [h.others n a] at h1
        rw [h.others n' b] at h2
        exact hd.own n n' j1 j2 t h1 h2 t1 t2
  · intro t htc
    rw [h.next]
    rcases (h.cancelled t).1 htc with hx | ⟨j, hx, hxt⟩
    · have := hd.gone t hx; omega
    · have := hd.tasks _ j t hx hxt; omega
  · intro n j t hn hjt htc
    by_cases hnn : n = name
    · subst hnn; rw [hj] at hn; cases hn; rw [ht] at hjt; cases hjt
      rcases (h.cancelled _).1 htc with hx | ⟨j, hx, hxt⟩
      · have := hd.gone _ hx; omega
      · have := hd.tasks _ j _ hx hxt; omega
    · rw [h.others n hnn] at hn
      rcases (h.cancelled _).1 htc with hx | ⟨j1, hx, hxt⟩
      · exact hd.live n j t hn hjt hx
      · exact hnn (hd.own n name j j1 t hn hx hjt hxt)
  · intro n j hn hl
    by_cases hnn : n = name
    · subst hnn; rw [hj] at hn; cases hn; rw [ht]; simp
    · rw [h.others n hnn] at hn; exact hd.started n j hn hl

/-- What updating the jobs of a configuration does. -/
structure Updated (cfg : Dict String JobCfg) (d d' : Daemon) : Prop where
  schedules : d'.schedules = d.schedules
  defs : d'.defs = d.defs
  others : ∀ n, cfg.get? n = none → d'.jobs.get? n = d.jobs.get? n
  same : ∀ n c j, cfg.get? n = some c → d.jobs.get? n = some j → j.lastConfig = some c → d'.jobs.get? n = some j
  new : ∀ n c, cfg.get? n = some c → (∀ j, d.jobs.get? n = some j → j.lastConfig ≠ some c) →
    ∃ j' t o, d'.jobs.get? n = some j' ∧ j'.lastConfig = some c ∧ j'.task = some t ∧ d.nextTask ≤ t ∧
      d.schedules.get? c.schedule = some o ∧ j'.schedule = some o ∧ j'.stored = d.defs.get? o
  cancelled : ∀ t, t ∈ d'.cancelled ↔ t ∈ d.cancelled ∨ ∃ n c j, cfg.get? n = some c ∧ d.jobs.get? n = some j ∧
    j.lastConfig ≠ some c ∧ j.task = some t
  next : d.nextTask ≤ d'.nextTask

theorem updateJobs_ok (fails : String → Bool) : ∀ (cfg : Dict String JobCfg) (d d' : Daemon), cfg.keys.Nodup → WF d →
    updateJobs fails cfg d = (.ok (), d') → WF d' ∧ Updated cfg d d'
  | [], d, d', _, hd, h => by
    cases h
    refine ⟨hd, rfl, rfl, fun _ _ => rfl, ?_, ?_, ?_, Nat.le_refl _⟩
    · intro n c j hc; cases hc
    · intro n c hc; cases hc
    · intro t; simp
  | (name, c) :: rest, d, d', hn, hd, h => by
    simp only [Dict.keys, List.map_cons, List.nodup_cons] at hn
    have hnot : Dict.get? rest name = none := Dict.get?_eq_none_iff.2 hn.1
    simp only [updateJobs] at h
    have hget : ∀ n, n ≠ name → Dict.get? ((name, c) :: rest) n = Dict.get? rest n := by
      intro n hne; simp [Dict.get?, Ne.symm hne]
    have hgetn : Dict.get? ((name, c) :: rest) name = some c := by simp [Dict.get?]
    split at h
    · rename_i hne
      generalize hg : restart fails d name c ((d.jobs.get? name).getD Job.new) = g at h
      obtain ⟨g1, d1⟩ := g
      cases g1 with
      | error e => cases h
      | ok u =>
        simp only [] at h
        have hch := restart_ok hg
        have hwf := hch.wf hd (restart_keys hg)
        obtain ⟨hwf', hu⟩ := updateJobs_ok fails rest d1 d' hn.2 hwf h
        obtain ⟨j1, o, hj1, hc1, ht1, ho, hs1, hst⟩ := hch.job
        have hkeep : d'.jobs.get? name = some j1 := by rw [hu.others name hnot, hj1]
        refine ⟨hwf', ?_, ?_, ?_, ?_, ?_, ?_, ?_⟩
        · rw [hu.schedules, hch.schedules]
        · rw [hu.defs, hch.defs]
        · intro n hnone
          have hnn : n ≠ name := by rintro rfl; rw [hgetn] at hnone; cases hnone
          rw [hget n hnn] at hnone
          rw [hu.others n hnone, hch.others n hnn]
        · intro n c' j hc' hj hl
          by_cases hnn : n = name
          · subst hnn
            rw [hgetn] at hc'; cases hc'
            rw [hj] at hne
            exact absurd hl.symm hne
          · rw [hget n hnn] at hc'
            exact hu.same n c' j hc' (by rw [hch.others n hnn, hj]) hl
        · intro n c' hc' hnew
          by_cases hnn : n = name
          · subst hnn
            rw [hgetn] at hc'; cases hc'
            exact ⟨j1, _, o, hkeep, hc1, ht1, Nat.le_refl _, ho, hs1, hst⟩
          · rw [hget n hnn] at hc'
            obtain ⟨j', t, o', k1, k2, k3, k4, k5, k6, k7⟩ := hu.new n c' hc' (fun j hj => hnew j (by rw [← hch.others n hnn, hj]))
            refine ⟨j', t, o', k1, k2, k3, ?_, ?_, k6, ?_⟩
            · have := hch.next; omega
            · rw [← hch.schedules, k5]
            · rw [k7, hch.defs]
        · intro t
          rw [hu.cancelled, hch.cancelled]
          constructor
          · rintro ((hx | ⟨j, hx, hxt⟩) | ⟨n, c', j, k1, k2, k3, k4⟩)
            · exact .inl hx
            · refine .inr ⟨name, c, j, hgetn, hx, ?_, hxt⟩
              rw [hx] at hne
              exact fun he => hne he.symm
            · have hnn : n ≠ name := by rintro rfl; rw [hnot] at k1; cases k1
              exact .inr ⟨n, c', j, by rw [hget n hnn, k1], by rw [← hch.others n hnn, k2], k3, k4⟩
          · rintro (hx | ⟨n, c', j, k1, k2, k3, k4⟩)
            · exact .inl (.inl hx)
            · by_cases hnn : n = name
              · subst hnn
                exact .inl (.inr ⟨j, k2, k4⟩)
              · rw [hget n hnn] at k1
                exact .inr ⟨n, c', j, k1, by rw [hch.others n hnn, k2], k3, k4⟩
        · have := hch.next; have := hu.next; omega
    · rename_i heq
      have heq : some c = ((d.jobs.get? name).getD Job.new).lastConfig := Classical.byContradiction heq
      have hold : ∃ j, d.jobs.get? name = some j ∧ j.lastConfig = some c := by
        cases hx : d.jobs.get? name with
        | none => rw [hx] at heq; cases heq
        | some j => rw [hx] at heq; exact ⟨j, rfl, heq.symm⟩
      obtain ⟨j0, hj0, hl0⟩ := hold
      obtain ⟨hwf', hu⟩ := updateJobs_ok fails rest d d' hn.2 hd h
      refine ⟨hwf', hu.schedules, hu.defs, ?_, ?_, ?_, ?_, hu.next⟩
      · intro n hnone
        have hnn : n ≠ name := by rintro rfl; rw [hgetn] at hnone; cases hnone
        rw [hget n hnn] at hnone
        exact hu.others n hnone
      · intro n c' j hc' hj hl
        by_cases hnn : n = name
        · subst hnn
          rw [hu.others n hnot]; exact hj
        · rw [hget n hnn] at hc'
          exact hu.same n c' j hc' hj hl
      · intro n c' hc' hnew
        by_cases hnn : n = name
        · subst hnn
          rw [hgetn] at hc'; cases hc'
          exact absurd hl0 (hnew j0 hj0)
        · rw [hget n hnn] at hc'
          exact hu.new n c' hc' hnew
      · intro t
        rw [hu.cancelled]
        constructor
        · rintro (hx | ⟨n, c', j, k1, k2, k3, k4⟩)
          · exact .inl hx
          · have hnn : n ≠ name := by rintro rfl; rw [hnot] at k1; cases k1
            exact .inr ⟨n, c', j, by rw [hget n hnn, k1], k2, k3, k4⟩
        · rintro (hx | ⟨n, c', j, k1, k2, k3, k4⟩)
          · exact .inl hx
          · by_cases hnn : n = name
            · subst hnn
              rw [hgetn] at k1; cases k1
              rw [hj0] at k2; cases k2
              exact absurd hl0 k3
            · rw [hget n hnn] at k1
              exact .inr ⟨n, c', j, k1, k2, k3, k4⟩

theorem stop_eq (d : Daemon) (j : Job) : (stop d j).1.jobs = d.jobs ∧ (stop d j).1.schedules = d.schedules ∧
    (stop d j).1.defs = d.defs ∧ (stop d j).1.nextTask = d.nextTask ∧
    ∀ t, t ∈ (stop d j).1.cancelled ↔ t ∈ d.cancelled ∨ j.task = some t := by
  unfold stop
  cases h : j.task with
  | none => simp
  | some x =>
    refine ⟨rfl, rfl, rfl, rfl, ?_⟩
    intro t
    simp only [List.mem_cons, Option.some.injEq]
    constructor
    · rintro (rfl | h)
      · exact .inr rfl
      · exact .inl h
    · rintro (h | rfl)
      · exact .inr h
      · exact .inl rfl

theorem deleteJobs_spec (cfg : Dict String JobCfg) : ∀ (l : List (String × Job)) (d : Daemon),
    (deleteJobs cfg l d).schedules = d.schedules ∧ (deleteJobs cfg l d).defs = d.defs ∧
    (deleteJobs cfg l d).nextTask = d.nextTask ∧
    (∃ p, (deleteJobs cfg l d).jobs = d.jobs.filter p) ∧
    (∀ n, (deleteJobs cfg l d).jobs.get? n = if cfg.has n = false ∧ n ∈ l.map Prod.fst then none else d.jobs.get? n) ∧
    (∀ t, t ∈ (deleteJobs cfg l d).cancelled ↔ t ∈ d.cancelled ∨ ∃ n j, (n, j) ∈ l ∧ cfg.has n = false ∧ j.task = some t)
  | [], d => by
    refine ⟨rfl, rfl, rfl, ⟨fun _ => true, ?_⟩, ?_, ?_⟩
    · exact (List.filter_eq_self.2 (by simp)).symm
    · intro n; simp [deleteJobs]
    · intro t; simp [deleteJobs]
  | (name, j) :: rest, d => by
    unfold deleteJobs
    split
    · rename_i hc
      obtain ⟨a, b, c, ⟨p, hp⟩, e, f⟩ := deleteJobs_spec cfg rest d
      refine ⟨a, b, c, ⟨p, hp⟩, ?_, ?_⟩
      · intro n
        rw [e]
        by_cases hn : n = name
        · have hf : ¬ (cfg.has n = false) := by rw [hn]; simp [hc]
          rw [if_neg (fun h => hf h.1), if_neg (fun h => hf h.1)]
        · have hm : (n ∈ ((name, j) :: rest).map Prod.fst) ↔ n ∈ rest.map Prod.fst := by simp [hn]
          simp only [hm]
      · intro t
        rw [f]
        constructor
        · rintro (h | ⟨n, j', h1, h2, h3⟩)
          · exact .inl h
          · exact .inr ⟨n, j', by simp [h1], h2, h3⟩
        · rintro (h | ⟨n, j', h1, h2, h3⟩)
          · exact .inl h
          · simp only [List.mem_cons, Prod.mk.injEq] at h1
            rcases h1 with ⟨rfl, rfl⟩ | h1
            · rw [hc] at h2; cases h2
            · exact .inr ⟨n, j', h1, h2, h3⟩
    · rename_i hc
      have hc : cfg.has name = false := by simpa using hc
      obtain ⟨s1, s2, s3, s4, s5⟩ := stop_eq d j
      obtain ⟨a, b, c, ⟨p, hp⟩, e, f⟩ := deleteJobs_spec cfg rest
        { (stop d j).1 with jobs := (stop d j).1.jobs.erase name }
      refine ⟨a.trans s2, b.trans s3, c.trans s4, ?_, ?_, ?_⟩
      · refine ⟨fun x => p x && decide (x.1 ≠ name), ?_⟩
        rw [hp]
        show List.filter p (List.filter _ _) = _
        rw [List.filter_filter, s1]
      · intro n
        rw [e]
        show (if _ then none else ((stop d j).1.jobs.erase name).get? n) = _
        rw [Dict.get?_erase, s1]
        by_cases hn : n = name
        · have hf : cfg.has n = false := by rw [hn]; exact hc
          rw [if_pos hn, if_pos (show cfg.has n = false ∧ n ∈ ((name, j) :: rest).map Prod.fst from ⟨hf, by simp [hn]⟩)]
          split <;> rfl
        · have hm : (n ∈ ((name, j) :: rest).map Prod.fst) ↔ n ∈ rest.map Prod.fst := by simp [hn]
          simp only [hm, if_neg hn]
      · intro t
        rw [f]
        show (t ∈ (stop d j).1.cancelled ∨ _) ↔ _
        rw [s5]
        constructor
        · rintro ((h | h) | ⟨n, j', h1, h2, h3⟩)
          · exact .inl h
          · exact .inr ⟨name, j, by simp, hc, h⟩
          · exact .inr ⟨n, j', by simp [h1], h2, h3⟩
        · rintro (h | ⟨n, j', h1, h2, h3⟩)
          · exact .inl (.inl h)
          · simp only [List.mem_cons, Prod.mk.injEq] at h1
            rcases h1 with ⟨rfl, rfl⟩ | h1
            · exact .inl (.inr h3)
            · exact .inr ⟨n, j', h1, h2, h3⟩

/-- The state after reading schedules. -/
def readCfg (d : Daemon) (cfg : Config) : Daemon := readSchedules d.schedules cfg.schedules [] d

theorem reload_ok {fails : String → Bool} {entries : Entries} {d d' : Daemon} {cfg : Config}
    (h : reload fails entries d cfg = (.ok (), d')) : ∃ d1,
      updateJobs fails cfg.jobs (readCfg d cfg) = (.ok (), d1) ∧
      d' = { deleteJobs cfg.jobs d1.jobs d1 with dead := findDead (deleteJobs cfg.jobs d1.jobs d1) entries } := by
  unfold reload at h
  generalize hg : updateJobs fails cfg.jobs (readSchedules d.schedules cfg.schedules [] d) = g at h
  obtain ⟨g1, d1⟩ := g
  cases g1 with
  | error e => cases h
  | ok u => cases h; exact ⟨d1, hg, rfl⟩

/-- A successful reload in terms of its parts. -/
theorem reload_facts {fails : String → Bool} {entries : Entries} {d d' : Daemon} {cfg : Config} (hd : WF d)
    (hn : cfg.jobs.keys.Nodup) (h : reload fails entries d cfg = (.ok (), d')) :
    WF d' ∧ ∃ d1, Updated cfg.jobs (readCfg d cfg) d1 ∧ d'.schedules = d1.schedules ∧ d'.defs = d1.defs ∧
      (∀ n, d'.jobs.get? n = if cfg.jobs.has n = false then none else d1.jobs.get? n) ∧
      (∀ t, t ∈ d'.cancelled ↔ t ∈ d1.cancelled ∨ ∃ n j, d1.jobs.get? n = some j ∧ cfg.jobs.has n = false ∧ j.task = some t) ∧
      (∀ n, n ∈ d'.dead ↔ (n, true) ∈ entries ∧ d'.jobs.has n = false) := by
  obtain ⟨d1, h1, rfl⟩ := reload_ok h
  obtain ⟨hw1, hu⟩ := updateJobs_ok fails cfg.jobs _ d1 hn (hd.readSchedules _ _ _) h1
  obtain ⟨a, b, c, ⟨p, hp⟩, e, f⟩ := deleteJobs_spec cfg.jobs d1.jobs d1
  have e' : ∀ n, (deleteJobs cfg.jobs d1.jobs d1).jobs.get? n =
      if cfg.jobs.has n = false then none else d1.jobs.get? n := by
    intro n
    rw [e]
    by_cases hc : cfg.jobs.has n = false
    · rw [if_pos hc]
      split
      · rfl
      · rename_i hh
        have : n ∉ d1.jobs.keys := fun hk => hh ⟨hc, hk⟩
        exact Dict.get?_eq_none_iff.2 this
    · rw [if_neg hc, if_neg (fun hh => hc hh.1)]
  have f' : ∀ t, t ∈ (deleteJobs cfg.jobs d1.jobs d1).cancelled ↔ t ∈ d1.cancelled ∨
      ∃ n j, d1.jobs.get? n = some j ∧ cfg.jobs.has n = false ∧ j.task = some t := by
    intro t
    rw [f]
    constructor
    · rintro (h | ⟨n, j, h1, h2, h3⟩)
      · exact .inl h
      · exact .inr ⟨n, j, Dict.get?_of_mem hw1.nodup h1, h2, h3⟩
    · rintro (h | ⟨n, j, h1, h2, h3⟩)
      · exact .inl h
      · exact .inr ⟨n, j, Dict.mem_of_get? h1, h2, h3⟩
  have hsub : ∀ n j, (deleteJobs cfg.jobs d1.jobs d1).jobs.get? n = some j → d1.jobs.get? n = some j ∧ cfg.jobs.has n ≠ false := by
    intro n j hnj
    rw [e'] at hnj
    split at hnj
    · cases hnj
    · rename_i hh; exact ⟨hnj, hh⟩
  refine ⟨⟨?_, ?_, ?_, ?_, ?_, ?_⟩, d1, hu, a, b, e', f', ?_⟩
  · show (deleteJobs cfg.jobs d1.jobs d1).jobs.keys.Nodup
    rw [hp]; exact Dict.nodup_filter hw1.nodup p
  · intro n j t hnj ht
    show t < (deleteJobs cfg.jobs d1.jobs d1).nextTask
    rw [c]; exact hw1.tasks n j t (hsub n j hnj).1 ht
  · intro n n' j j' t h1 h2 t1 t2
    exact hw1.own n n' j j' t (hsub _ _ h1).1 (hsub _ _ h2).1 t1 t2
  · intro t ht
    show t < (deleteJobs cfg.jobs d1.jobs d1).nextTask
    rw [c]
    rcases (f' t).1 ht with ht | ⟨n, j, k1, _, k3⟩
    · exact hw1.gone t ht
    · exact hw1.tasks n j t k1 k3
  · intro n j t hnj ht htc
    obtain ⟨k1, k2⟩ := hsub n j hnj
    rcases (f' t).1 htc with htc | ⟨n', j', q1, q2, q3⟩
    · exact hw1.live n j t k1 ht htc
    · have := hw1.own n n' j j' t k1 q1 ht q3
      subst this; exact k2 q2
  · intro n j hnj hl
    exact hw1.started n j (hsub n j hnj).1 hl
  · intro n
    show n ∈ findDead _ _ ↔ _
    simp only [findDead, List.mem_map, List.mem_filter, Bool.and_eq_true, Bool.not_eq_true', Prod.exists,
      exists_and_right, exists_eq_right]
    constructor
    · rintro ⟨x, h1, h2, rfl⟩; exact ⟨h1, h2⟩
    · rintro ⟨h1, h2⟩; exact ⟨true, h1, h2, rfl⟩

/-- **C54** After a reload: the jobs are exactly the configured ones; a job whose configuration has not changed is the same
as before and its task was not cancelled; any other job has the new configuration and a new task, and the task it had
before, like that of a job no longer configured, is cancelled; inactive are exactly the directories without a job. -/
theorem C54_reload (fails : String → Bool) (entries : Entries) (d d' : Daemon) (cfg : Config) (hd : WF d)
    (hn : cfg.jobs.keys.Nodup) (h : reload fails entries d cfg = (.ok (), d')) :
    (∀ n, d'.jobs.has n = cfg.jobs.has n) ∧
    (∀ n c j, cfg.jobs.get? n = some c → d.jobs.get? n = some j → j.lastConfig = some c →
      d'.jobs.get? n = some j ∧ ∀ t, j.task = some t → t ∉ d'.cancelled) ∧
    (∀ n c, cfg.jobs.get? n = some c → (∀ j, d.jobs.get? n = some j → j.lastConfig ≠ some c) →
      (∃ j' t, d'.jobs.get? n = some j' ∧ j'.lastConfig = some c ∧ j'.task = some t ∧ t ∉ d'.cancelled ∧
        ∀ n' j t', d.jobs.get? n' = some j → j.task = some t' → t' ≠ t) ∧
      ∀ j t, d.jobs.get? n = some j → j.task = some t → t ∈ d'.cancelled) ∧
    (∀ n j t, cfg.jobs.has n = false → d.jobs.get? n = some j → j.task = some t → t ∈ d'.cancelled) ∧
    (∀ n, n ∈ d'.dead ↔ (n, true) ∈ entries ∧ cfg.jobs.has n = false) := by
  obtain ⟨hw, d1, hu, _, _, e, f, g⟩ := reload_facts hd hn h
  obtain ⟨r1, r2, r3⟩ := readSchedules_same d.schedules cfg.schedules [] d
  have r1 : (readCfg d cfg).jobs = d.jobs := r1
  have r3 : (readCfg d cfg).nextTask = d.nextTask := r3
  have hhas : ∀ n c, cfg.jobs.get? n = some c → cfg.jobs.has n = true := by
    intro n c hc; simp [Dict.has, hc]
  have hget : ∀ n c, cfg.jobs.get? n = some c → d'.jobs.get? n = d1.jobs.get? n := by
    intro n c hc
    rw [e, if_neg]
    rw [hhas n c hc]; simp
  have hjobs : ∀ n, d'.jobs.has n = cfg.jobs.has n := by
    intro n
    cases hc : cfg.jobs.get? n with
    | none =>
      have hf : cfg.jobs.has n = false := by simp [Dict.has, hc]
      rw [hf]
      unfold Dict.has
      rw [e, if_pos hf]; rfl
    | some c =>
      rw [hhas n c hc]
      unfold Dict.has
      rw [hget n c hc]
      by_cases hold : ∃ j, d.jobs.get? n = some j ∧ j.lastConfig = some c
      · obtain ⟨j, k1, k2⟩ := hold
        rw [hu.same n c j hc (by rw [r1, k1]) k2]; rfl
      · obtain ⟨j', _, _, k1, _⟩ := hu.new n c hc (fun j hj hl => hold ⟨j, by rw [← r1, hj], hl⟩)
        rw [k1]; rfl
  refine ⟨hjobs, ?_, ?_, ?_, ?_⟩
  · intro n c j hc hj hl
    have k := hu.same n c j hc (by rw [r1, hj]) hl
    have k' : d'.jobs.get? n = some j := by rw [hget n c hc, k]
    exact ⟨k', fun t ht => hw.live n j t k' ht⟩
  · intro n c hc hnew
    obtain ⟨j', t, _, k1, k2, k3, k4, _⟩ := hu.new n c hc (fun j hj => hnew j (by rw [← r1, hj]))
    have k' : d'.jobs.get? n = some j' := by rw [hget n c hc, k1]
    refine ⟨⟨j', t, k', k2, k3, hw.live n j' t k' k3, ?_⟩, ?_⟩
    · intro n' j t' q1 q2
      have := hd.tasks n' j t' q1 q2
      omega
    · intro j t hj ht
      rw [f, hu.cancelled]
      exact .inl (.inr ⟨n, c, j, hc, by rw [r1, hj], hnew j hj, ht⟩)
  · intro n j t hc hj ht
    have hnone : cfg.jobs.get? n = none := by
      unfold Dict.has at hc
      cases hx : cfg.jobs.get? n with
      | none => rfl
      | some c => rw [hx] at hc; cases hc
    rw [f]
    exact .inr ⟨n, j, by rw [hu.others n hnone, r1, hj], hc, ht⟩
  · intro n
    rw [g, hjobs]

theorem wf_reload {fails : String → Bool} {entries : Entries} {d d' : Daemon} {cfg : Config} (hd : WF d)
    (hn : cfg.jobs.keys.Nodup) (h : reload fails entries d cfg = (.ok (), d')) : WF d' := (reload_facts hd hn h).1

/-! ## C63 -/

theorem readSchedules_lookup (old : Dict String Nat) : ∀ (l : Dict String String) (acc : Dict String Nat) (d : Daemon),
    l.keys.Nodup → (∀ n ∈ l.keys, acc.get? n = none) →
    (∀ n o, old.get? n = some o → o < d.nextObj) →
    (∀ n o, acc.get? n = some o → o < d.nextObj) →
    (∀ n n' o, old.get? n = some o → old.get? n' = some o → n = n') →
    (∀ n ∈ l.keys, ∀ n' o, old.get? n = some o → acc.get? n' ≠ some o) →
    (∀ n n' o, acc.get? n = some o → acc.get? n' = some o → n = n') →
    (∀ n, acc.get? n ≠ none → (readSchedules old l acc d).schedules.get? n = acc.get? n ∧
      ∀ o, acc.get? n = some o → (readSchedules old l acc d).defs.get? o = d.defs.get? o) ∧
    (∀ n text, l.get? n = some text → ∃ o, (readSchedules old l acc d).schedules.get? n = some o ∧
      (readSchedules old l acc d).defs.get? o = some text ∧ (∀ o', old.get? n = some o' → o = o') ∧
      (old.get? n = none → d.nextObj ≤ o)) ∧
    (∀ n, acc.get? n = none → l.get? n = none → (readSchedules old l acc d).schedules.get? n = none) ∧
    d.nextObj ≤ (readSchedules old l acc d).nextObj ∧
    (∀ n o, (readSchedules old l acc d).schedules.get? n = some o → o < (readSchedules old l acc d).nextObj) ∧
    (∀ n n' o, (readSchedules old l acc d).schedules.get? n = some o →
      (readSchedules old l acc d).schedules.get? n' = some o → n = n')
  | [], acc, d, _, _, _, hacc, _, _, hai => by
    refine ⟨?_, ?_, ?_, Nat.le_refl _, hacc, hai⟩
    · intro n _; exact ⟨rfl, fun o _ => rfl⟩
    · intro n text h; cases h
    · intro n h _; exact h
  | (name, text) :: rest, acc, d, hn, hfree, hold, hacc, hinj, hsep, hai => by
    simp only [Dict.keys, List.map_cons, List.nodup_cons] at hn
    have hname : acc.get? name = none := hfree name (by simp [Dict.keys])
    -- common step: the object chosen
    have main : ∀ (o : Nat) (d1 : Daemon), d1.defs = d.defs.set o text → d.nextObj ≤ d1.nextObj → o < d1.nextObj →
        (∀ n' o', acc.get? n' = some o' → o' ≠ o) → (∀ n ∈ Dict.keys rest, old.get? n ≠ some o) →
        (∀ o', old.get? name = some o' → o = o') → (old.get? name = none → d.nextObj ≤ o) →
        (∀ n, acc.get? n ≠ none → (readSchedules old rest (acc.set name o) d1).schedules.get? n = acc.get? n ∧
          ∀ o2, acc.get? n = some o2 → (readSchedules old rest (acc.set name o) d1).defs.get? o2 = d.defs.get? o2) ∧
        (∀ n t, Dict.get? ((name, text) :: rest) n = some t → ∃ o', (readSchedules old rest (acc.set name o) d1).schedules.get? n = some o' ∧
          (readSchedules old rest (acc.set name o) d1).defs.get? o' = some t ∧ (∀ o'', old.get? n = some o'' → o' = o'') ∧
          (old.get? n = none → d.nextObj ≤ o')) ∧
        (∀ n, acc.get? n = none → Dict.get? ((name, text) :: rest) n = none →
          (readSchedules old rest (acc.set name o) d1).schedules.get? n = none) ∧
        d.nextObj ≤ (readSchedules old rest (acc.set name o) d1).nextObj ∧
        (∀ n o', (readSchedules old rest (acc.set name o) d1).schedules.get? n = some o' →
          o' < (readSchedules old rest (acc.set name o) d1).nextObj) ∧
        (∀ n n' o', (readSchedules old rest (acc.set name o) d1).schedules.get? n = some o' →
          (readSchedules old rest (acc.set name o) d1).schedules.get? n' = some o' → n = n') := by
      intro o d1 hdefs hle hlt hoacc horest hoold honew
      obtain ⟨i1, i2, i3, i4, i5, i6⟩ := readSchedules_lookup old rest (acc.set name o) d1 hn.2
        (by
          intro n hnk
          rw [Dict.get?_set, if_neg (by rintro rfl; exact hn.1 hnk)]
          exact hfree n (by simp [Dict.keys] at hnk ⊢; exact .inr hnk))
        (fun n o' ho' => Nat.lt_of_lt_of_le (hold n o' ho') hle)
        (by
          intro n o' ho'
          rw [Dict.get?_set] at ho'
          split at ho'
          · cases ho'; exact hlt
          · exact Nat.lt_of_lt_of_le (hacc n o' ho') hle)
        hinj
        (by
          intro n hnk n' o' ho' hset
          rw [Dict.get?_set] at hset
          split at hset
          · cases hset; exact horest n hnk ho'
          · exact hsep n (by simp [Dict.keys] at hnk ⊢; exact .inr hnk) n' o' ho' hset)
        (by
          intro n n' o' h1 h2
          rw [Dict.get?_set] at h1 h2
          by_cases a : n = name
          · by_cases b : n' = name
            · rw [a, b]
            · rw [if_pos a] at h1; rw [if_neg b] at h2; cases h1; exact absurd rfl (hoacc n' _ h2)
          · by_cases b : n' = name
            · rw [if_neg a] at h1; rw [if_pos b] at h2; cases h2; exact absurd rfl (hoacc n _ h1)
            · rw [if_neg a] at h1; rw [if_neg b] at h2; exact hai n n' o' h1 h2)
      refine ⟨?_, ?_, ?_, Nat.le_trans hle i4, i5, i6⟩
      · intro n hna
        have hnn : n ≠ name := by rintro rfl; exact hna hname
        have hs : (acc.set name o).get? n = acc.get? n := Dict.get?_set_ne _ _ hnn
        obtain ⟨j1, j2⟩ := i1 n (by rw [hs]; exact hna)
        refine ⟨by rw [j1, hs], ?_⟩
        intro o' ho'
        rw [j2 o' (by rw [hs, ho']), hdefs, Dict.get?_set_ne _ _ (hoacc n o' ho')]
      · intro n t hnt
        by_cases hnn : n = name
        · subst hnn
          have : t = text := by simp [Dict.get?] at hnt; exact hnt.symm
          subst this
          obtain ⟨j1, j2⟩ := i1 n (by simp)
          refine ⟨o, by rw [j1]; simp, ?_, hoold, honew⟩
          rw [j2 o (by simp), hdefs]; simp
        · have : Dict.get? rest n = some t := by simpa [Dict.get?, Ne.symm hnn] using hnt
          obtain ⟨o', k1, k2, k3, k4⟩ := i2 n t this
          exact ⟨o', k1, k2, k3, fun h => Nat.le_trans hle (k4 h)⟩
      · intro n hna hnl
        have hnn : n ≠ name := by rintro rfl; simp [Dict.get?] at hnl
        apply i3 n
        · rw [Dict.get?_set_ne _ _ hnn]; exact hna
        · simpa [Dict.get?, Ne.symm hnn] using hnl
    unfold readSchedules
    cases ho : old.get? name with
    | some o =>
      simp only []
      have := main o { d with defs := d.defs.set o text } rfl (Nat.le_refl _) (hold name o ho)
        (fun n' o' h he => hsep name (by simp [Dict.keys]) n' o ho (by rw [h, he]))
        (fun n hnk he => hn.1 (by rw [hinj name n o ho he]; exact hnk))
        (fun o' h => by rw [ho] at h; cases h; rfl)
        (fun h => by rw [ho] at h; cases h)
      exact this
    | none =>
      simp only []
      have := main d.nextObj { d with defs := d.defs.set d.nextObj text, nextObj := d.nextObj + 1 } rfl
        (Nat.le_succ _) (Nat.lt_succ_self _)
        (fun n' o' h he => by have := hacc n' o' h; omega)
        (fun n hnk he => by have := hold n _ he; omega)
        (fun o' h => by rw [ho] at h; cases h)
        (fun _ => Nat.le_refl _)
      exact this

/-- Schedules are distinct objects and every job has the object of the schedule named in its configuration. -/
structure Linked (d : Daemon) : Prop where
  old : ∀ n o, d.schedules.get? n = some o → o < d.nextObj
  inj : ∀ n n' o, d.schedules.get? n = some o → d.schedules.get? n' = some o → n = n'
  job : ∀ n j c, d.jobs.get? n = some j → j.lastConfig = some c → ∃ o, d.schedules.get? c.schedule = some o ∧ j.schedule = some o

theorem Linked.init : Linked .init := by
  refine ⟨?_, ?_, ?_⟩ <;> simp [Daemon.init]

/-- Every job names a schedule of the same configuration. -/
def Config.Valid (cfg : Config) : Prop :=
  cfg.jobs.keys.Nodup ∧ cfg.schedules.keys.Nodup ∧ ∀ n c, cfg.jobs.get? n = some c → cfg.schedules.has c.schedule = true

theorem nextObj_deleteJobs (cfg : Dict String JobCfg) : ∀ (l : List (String × Job)) (d : Daemon),
    (deleteJobs cfg l d).nextObj = d.nextObj
  | [], d => rfl
  | (name, j) :: rest, d => by
    unfold deleteJobs
    split
    · exact nextObj_deleteJobs cfg rest d
    · rw [nextObj_deleteJobs cfg rest]
      unfold stop; split <;> rfl

theorem nextObj_updateJobs (fails : String → Bool) : ∀ (cfg : Dict String JobCfg) (d : Daemon),
    (updateJobs fails cfg d).2.nextObj = d.nextObj
  | [], d => rfl
  | (name, c) :: rest, d => by
    simp only [updateJobs]
    split
    · generalize hg : restart fails d name c ((d.jobs.get? name).getD Job.new) = g
      have hd1 : g.2.nextObj = d.nextObj := by
        rw [← hg]
        have hs : ∀ j, (stop d j).1.nextObj = d.nextObj := by intro j; unfold stop; split <;> rfl
        unfold restart start
        split
        · exact hs _
        · split <;> exact hs _
      obtain ⟨g1, d1⟩ := g
      cases g1 with
      | error e => exact hd1
      | ok u => simp only []; rw [nextObj_updateJobs fails rest]; exact hd1
    · exact nextObj_updateJobs fails rest d

theorem linked_reload {fails : String → Bool} {entries : Entries} {d d' : Daemon} {cfg : Config} (hd : WF d) (hl : Linked d)
    (hv : cfg.Valid) (h : reload fails entries d cfg = (.ok (), d')) :
    Linked d' ∧ ∀ n text, cfg.schedules.get? n = some text → ∃ o, d'.schedules.get? n = some o ∧ d'.defs.get? o = some text := by
  obtain ⟨hn, hs, hv⟩ := hv
  obtain ⟨_, d1, hu, e1, e2, e, _, _⟩ := reload_facts hd hn h
  obtain ⟨i1, i2, i3, i4, i5, i6⟩ := readSchedules_lookup d.schedules cfg.schedules [] d hs (by simp) hl.old (by simp) hl.inj (by simp) (by simp)
  have hsch : d'.schedules = (readCfg d cfg).schedules := by rw [e1, hu.schedules]
  have hdefs : d'.defs = (readCfg d cfg).defs := by rw [e2, hu.defs]
  have hnext : d'.nextObj = (readCfg d cfg).nextObj := by
    obtain ⟨d1', h1, rfl⟩ := reload_ok h
    show (deleteJobs cfg.jobs d1'.jobs d1').nextObj = _
    rw [nextObj_deleteJobs, ← nextObj_updateJobs fails cfg.jobs (readCfg d cfg), h1]
  have r1 : (readCfg d cfg).jobs = d.jobs := (readSchedules_same d.schedules cfg.schedules [] d).1
  have hget : ∀ n c, cfg.jobs.get? n = some c → d'.jobs.get? n = d1.jobs.get? n := by
    intro n c hc
    rw [e, if_neg]
    simp [Dict.has, hc]
  refine ⟨⟨?_, ?_, ?_⟩, ?_⟩
  · intro n o ho
    rw [hnext]
    rw [hsch] at ho
    exact i5 n o ho
  · intro n n' o h1 h2
    rw [hsch] at h1 h2
    exact i6 n n' o h1 h2
  · intro n j c hj hc
    have hcn : ∃ c', cfg.jobs.get? n = some c' := by
      cases hx : cfg.jobs.get? n with
      | some c' => exact ⟨c', rfl⟩
      | none =>
        rw [e, if_pos (by simp [Dict.has, hx])] at hj; cases hj
    obtain ⟨c', hc'⟩ := hcn
    rw [hget n c' hc'] at hj
    by_cases hold : ∃ j0, d.jobs.get? n = some j0 ∧ j0.lastConfig = some c'
    · obtain ⟨j0, k1, k2⟩ := hold
      have := hu.same n c' j0 hc' (by rw [r1, k1]) k2
      rw [hj] at this; cases this
      rw [hc] at k2; cases k2
      obtain ⟨o, q1, q2⟩ := hl.job n j c k1 hc
      have hvc := hv n c hc'
      cases ht : cfg.schedules.get? c.schedule with
      | none => simp [Dict.has, ht] at hvc
      | some text =>
        obtain ⟨o', a1, _, a3, _⟩ := i2 c.schedule text ht
        have := a3 o q1; subst this
        exact ⟨o', by rw [hsch]; exact a1, q2⟩
    · obtain ⟨j', t, o, k1, k2, k3, k4, k5, k6, k7⟩ := hu.new n c' hc' (fun j0 hj0 hl0 => hold ⟨j0, by rw [← r1, hj0], hl0⟩)
      rw [hj] at k1; cases k1
      rw [hc] at k2; cases k2
      exact ⟨o, by rw [hsch]; exact k5, k6⟩
  · intro n text hnt
    obtain ⟨o, a1, a2, _⟩ := i2 n text hnt
    exact ⟨o, by rw [hsch]; exact a1, by rw [hdefs]; exact a2⟩

/-- A daemon that has read a sequence of configurations without error (an error ends the daemon,
`daemon/__init__.py:232-235`), the last one being `cfg`; each names only schedules it defines. -/
inductive Reloaded : Config → Daemon → Prop
  | first {fails entries cfg d} (hv : cfg.Valid) (h : reload fails entries Daemon.init cfg = (.ok (), d)) : Reloaded cfg d
  | again {fails entries cfg0 cfg d0 d} (h0 : Reloaded cfg0 d0) (hv : cfg.Valid)
      (h : reload fails entries d0 cfg = (.ok (), d)) : Reloaded cfg d

theorem Reloaded.facts {cfg : Config} {d : Daemon} (h : Reloaded cfg d) : WF d ∧ Linked d ∧
    (∀ n text, cfg.schedules.get? n = some text → ∃ o, d.schedules.get? n = some o ∧ d.defs.get? o = some text) ∧
    (∀ n c, cfg.jobs.get? n = some c → ∃ j, d.jobs.get? n = some j ∧ j.lastConfig = some c) := by
  have step : ∀ {fails entries d0 d} {cfg : Config}, WF d0 → Linked d0 → cfg.Valid →
      reload fails entries d0 cfg = (.ok (), d) → WF d ∧ Linked d ∧
      (∀ n text, cfg.schedules.get? n = some text → ∃ o, d.schedules.get? n = some o ∧ d.defs.get? o = some text) ∧
      (∀ n c, cfg.jobs.get? n = some c → ∃ j, d.jobs.get? n = some j ∧ j.lastConfig = some c) := by
    intro fails entries d0 d cfg hw hl hv h
    obtain ⟨l1, l2⟩ := linked_reload hw hl hv h
    refine ⟨wf_reload hw hv.1 h, l1, l2, ?_⟩
    intro n c hc
    obtain ⟨_, c2, c3, _, _⟩ := C54_reload fails entries d0 d cfg hw hv.1 h
    by_cases hold : ∃ j, d0.jobs.get? n = some j ∧ j.lastConfig = some c
    · obtain ⟨j, h1, h2⟩ := hold
      exact ⟨j, (c2 n c j hc h1 h2).1, h2⟩
    · obtain ⟨⟨j', t, h1, h2, _⟩, _⟩ := c3 n c hc (fun j hj hl => hold ⟨j, hj, hl⟩)
      exact ⟨j', h1, h2⟩
  induction h with
  | first hv h => exact step WF.init Linked.init hv h
  | again h0 hv h ih => exact step ih.1 ih.2.1 hv h

/-- **C63 (partial)** After any sequence of reloads of valid configurations, the schedule that a job of the daemon uses has
the definition given by the last configuration under the schedule name given there.  Missing: the `config` file in the
repository (see `C63_false_stored_config`) and configurations in which a job names a missing schedule
(`C63_false_stale_schedule`). -/
theorem C63_daemon_follows_partial {cfg : Config} {d : Daemon} (h : Reloaded cfg d) (n : String) (c : JobCfg) (text : String)
    (hc : cfg.jobs.get? n = some c) (ht : cfg.schedules.get? c.schedule = some text) :
    ∃ j o, d.jobs.get? n = some j ∧ j.schedule = some o ∧ d.defs.get? o = some text := by
  obtain ⟨_, hl, hs, hj⟩ := h.facts
  obtain ⟨j, h1, h2⟩ := hj n c hc
  obtain ⟨o, o1, o2⟩ := hl.job n j c h1 h2
  obtain ⟨o', p1, p2⟩ := hs c.schedule text ht
  rw [o1] at p1; cases p1
  exact ⟨j, o, h1, o2, p2⟩

/-- A configuration with one schedule and one job. -/
def exCfg (text : String) : Config := ⟨[("default", text)], [("vm", ⟨"default", "rbd/vm"⟩)]⟩

theorem exCfg_valid (text : String) : (exCfg text).Valid := by
  refine ⟨by simp [exCfg, Dict.keys], by simp [exCfg, Dict.keys], ?_⟩
  intro n c h
  simp only [exCfg, Dict.get?] at h
  split at h
  · cases h; simp [exCfg, Dict.has, Dict.get?]
  · cases h

/-- **C63 is false of the code** for the commands: the definition of a schedule changes while the configuration of the job
does not.  The job is not configured again, so that the `config` file of the repository, from which every command
(`backy backup`, `tags`, `expire`, ...) takes its schedule, keeps the old definition for good. -/
theorem C63_false_stored_config : ∃ d : Daemon, Reloaded (exCfg "daily: keep 30") d ∧
    ∃ j, d.jobs.get? "vm" = some j ∧ j.stored = some "daily: keep 9" ∧ (exCfg "daily: keep 30").schedules.get? "default" =
      some "daily: keep 30" := by
  refine ⟨_, .again (fails := fun _ => false) (entries := []) (.first (fails := fun _ => false) (entries := [])
    (exCfg_valid "daily: keep 9") rfl) (exCfg_valid "daily: keep 30") rfl, ?_⟩
  exact ⟨_, rfl, rfl, rfl⟩

/-- **C63 is false of the code** if a configuration for once lacks the schedule of a job that is otherwise unchanged: this is
not noticed, and when the schedule is there again, the job goes on with the object of before, with the old definition. -/
theorem C63_false_stale_schedule : ∃ d : Daemon,
    (∃ d1 d2 : Daemon, reload (fun _ => false) [] Daemon.init (exCfg "daily: keep 9") = (.ok (), d1) ∧
      reload (fun _ => false) [] d1 ⟨[], (exCfg "").jobs⟩ = (.ok (), d2) ∧
      reload (fun _ => false) [] d2 (exCfg "daily: keep 30") = (.ok (), d)) ∧
    ∃ j o, d.jobs.get? "vm" = some j ∧ j.schedule = some o ∧ d.defs.get? o = some "daily: keep 9" := by
  exact ⟨_, ⟨_, _, rfl, rfl, rfl⟩, _, _, rfl, rfl, rfl⟩

/-- The hypotheses of `C54_reload` and `C63_daemon_follows_partial` are met by a daemon with two jobs, of which a reload keeps
one, changes none, drops one and adds one, and which has a leftover directory. -/
example : ∃ d d' : Daemon,
    reload (fun _ => false) [] Daemon.init ⟨[("s", "x")], [("a", ⟨"s", "1"⟩), ("b", ⟨"s", "2"⟩)]⟩ = (.ok (), d) ∧
    reload (fun _ => false) [("a", true), ("b", true), ("f", false)] d
      ⟨[("s", "y")], [("a", ⟨"s", "1"⟩), ("c", ⟨"s", "3"⟩)]⟩ = (.ok (), d') ∧
    d'.dead = ["b"] ∧ d'.cancelled = [1] ∧ d'.jobs.keys = ["a", "c"] ∧ d'.defs.get? 0 = some "y" :=
  ⟨_, _, rfl, rfl, rfl, rfl, rfl, rfl⟩

theorem readSchedules_has (old : Dict String Nat) : ∀ (l : List (String × String)) (acc : Dict String Nat) (d : Daemon) (n : String),
    (readSchedules old l acc d).schedules.has n = (acc.has n || Dict.has l n)
  | [], acc, d, n => by simp [readSchedules, Dict.has, Dict.get?]
  | (name, text) :: rest, acc, d, n => by
    have hset : ∀ o, Dict.has (acc.set name o) n = (acc.has n || decide (name = n)) := by
      intro o
      unfold Dict.has
      rw [Dict.get?_set]
      by_cases hn : n = name
      · subst hn; simp
      · rw [if_neg hn]; simp [Ne.symm hn]
    have hl : Dict.has ((name, text) :: rest) n = (decide (name = n) || Dict.has rest n) := by
      unfold Dict.has
      by_cases hn : name = n
      · simp [Dict.get?, hn]
      · have : Dict.get? ((name, text) :: rest) n = Dict.get? rest n := by simp [Dict.get?, hn]
        rw [this]; simp [hn]
    unfold readSchedules
    rw [hl, ← Bool.or_assoc]
    split
    · rw [readSchedules_has old rest, hset]
    · rw [readSchedules_has old rest, hset]

/-- When the configuration of a job is taken over. -/
theorem restart_succeeds {fails : String → Bool} {d : Daemon} {name : String} {c : JobCfg} (j : Job)
    (hs : d.schedules.has c.schedule = true) (hf : fails name = false) : ∃ d', restart fails d name c j = (.ok (), d') ∧ d'.schedules = d.schedules := by
  have h1 : (stop d j).1.schedules = d.schedules := by unfold stop; split <;> rfl
  have h2 : (stop d j).2.task = none := by
    unfold stop; split
    · assumption
    · rfl
  obtain ⟨o, ho⟩ := Option.isSome_iff_exists.1 hs
  unfold restart configure
  rw [h1, ho]
  simp only [hf, Bool.false_eq_true, if_false]
  unfold start
  simp only [h2]
  exact ⟨_, rfl, h1⟩

theorem updateJobs_succeeds {fails : String → Bool} : ∀ (l : List (String × JobCfg)) (d : Daemon),
    (∀ e ∈ l, d.schedules.has e.2.schedule = true ∧ fails e.1 = false) → ∃ d', updateJobs fails l d = (.ok (), d')
  | [], d, _ => ⟨d, rfl⟩
  | (name, c) :: rest, d, h => by
    obtain ⟨h1, h2⟩ := h (name, c) (by simp)
    simp only [updateJobs]
    split
    · obtain ⟨d', e1, e2⟩ := restart_succeeds ((d.jobs.get? name).getD Job.new) h1 h2
      rw [e1]
      exact updateJobs_succeeds rest d' (fun e he => by rw [e2]; exact h e (by simp [he]))
    · exact updateJobs_succeeds rest d (fun e he => h e (by simp [he]))

/-- A reload of a configuration in which every job names a schedule of the configuration succeeds, whatever the daemon did before, unless a
repository cannot be prepared. -/
theorem C54_succeeds (fails : String → Bool) (entries : Entries) (d : Daemon) {cfg : Config} (hn : cfg.jobs.keys.Nodup)
    (hv : ∀ n c, cfg.jobs.get? n = some c → cfg.schedules.has c.schedule = true ∧ fails n = false) :
    ∃ d', reload fails entries d cfg = (.ok (), d') := by
  obtain ⟨d1, h1⟩ := updateJobs_succeeds (fails := fails) cfg.jobs (readSchedules d.schedules cfg.schedules [] d) (fun e he => by
    obtain ⟨h1, h2⟩ := hv e.1 e.2 (Dict.get?_of_mem hn he)
    refine ⟨?_, h2⟩
    rw [readSchedules_has, h1, Bool.or_true])
  unfold reload
  rw [h1]
  exact ⟨_, rfl⟩

/-- The daemon starts exactly if every job names a schedule of the configuration and every repository can be prepared. -/
theorem C54_starts_iff (fails : String → Bool) (entries : Entries) {cfg : Config} (hn : cfg.jobs.keys.Nodup) :
    (∃ d', reload fails entries Daemon.init cfg = (.ok (), d')) ↔
      ∀ n c, cfg.jobs.get? n = some c → cfg.schedules.has c.schedule = true ∧ fails n = false := by
  refine ⟨?_, C54_succeeds fails entries Daemon.init hn⟩
  rintro ⟨d', h⟩
  obtain ⟨d1, h1, _⟩ := reload_ok h
  -- every job is new, so that it is configured
  have key : ∀ (l : List (String × JobCfg)) (d d' : Daemon), (l.map Prod.fst).Nodup → (∀ e ∈ l, d.jobs.get? e.1 = none) →
      updateJobs fails l d = (.ok (), d') → ∀ e ∈ l, d.schedules.has e.2.schedule = true ∧ fails e.1 = false := by
    intro l
    induction l with
    | nil => intro d d' _ _ _ e he; cases he
    | cons a rest ih =>
      obtain ⟨name, c⟩ := a
      intro d d' hnd hnew hu e he
      have hno := hnew (name, c) (by simp)
      simp only [updateJobs] at hu
      rw [hno] at hu
      rw [if_pos (by simp [Job.new])] at hu
      generalize hg : restart fails d name c ((none : Option Job).getD Job.new) = g at hu
      obtain ⟨g1, d2⟩ := g
      cases g1 with
      | error e => cases hu
      | ok u =>
        have hg2 : restart fails d name c ((d.jobs.get? name).getD Job.new) = (.ok (), d2) := by rw [hno]; exact hg
        have hc := restart_ok hg2
        rw [List.map_cons, List.nodup_cons] at hnd
        rcases List.mem_cons.1 he with rfl | he
        · obtain ⟨j', o, _, _, _, ho, _⟩ := hc.job
          refine ⟨by unfold Dict.has; rw [ho]; rfl, ?_⟩
          cases hf : fails name with
          | false => rfl
          | true =>
            unfold restart configure at hg
            simp only [hf, if_true] at hg
            split at hg
            · cases hg
            · rename_i hh
              split at hh <;> cases hh
        · have := ih d2 d' hnd.2 (fun e he => by
            rw [hc.others e.1 (by
              rintro heq
              exact hnd.1 (List.mem_map.2 ⟨e, he, heq⟩))]
            exact hnew e (by simp [he])) hu e he
          rw [hc.schedules] at this
          exact this
  have hr := key cfg.jobs _ d1 hn (fun e _ => by
    show (readSchedules Daemon.init.schedules cfg.schedules [] Daemon.init).jobs.get? e.1 = none
    rw [(readSchedules_same _ _ _ _).1]; rfl) h1
  intro n c hc
  obtain ⟨h2, h3⟩ := hr (n, c) (Dict.mem_of_get? hc)
  refine ⟨?_, h3⟩
  have : (readSchedules Daemon.init.schedules cfg.schedules [] Daemon.init).schedules.has c.schedule = true := h2
  rw [readSchedules_has] at this
  simpa [Dict.has, Dict.get?] using this

example : ∃ d', reload (fun _ => false) [] Daemon.init ⟨[("s", "x")], [("a", ⟨"s", "1"⟩), ("b", ⟨"s", "2"⟩)]⟩ = (.ok (), d') :=
  (C54_starts_iff (fun _ => false) [] (by decide)).2 (by
    intro n c hc
    refine ⟨?_, rfl⟩
    have := Dict.mem_of_get? hc
    simp only [List.mem_cons, List.not_mem_nil, or_false, Prod.mk.injEq] at this
    rcases this with ⟨_, rfl⟩ | ⟨_, rfl⟩ <;> rfl)

/-- A schedule that is not defined: the daemon does not start. -/
example : ¬ ∃ d', reload (fun _ => false) [] Daemon.init ⟨[("s", "x")], [("a", ⟨"s", "1"⟩), ("b", ⟨"t", "2"⟩)]⟩ = (.ok (), d') := fun h =>
  absurd ((C54_starts_iff (fun _ => false) [] (by decide)).1 h "b" ⟨"t", "2"⟩ rfl).1 (by decide)

example := C54_reload (fun _ => false) [("gone", true), ("f", false)] Daemon.init _ (exCfg "x") WF.init (by simp [exCfg, Dict.keys]) rfl
example := C54_succeeds (fun _ => false) [("gone", true), ("f", false)] Daemon.init (cfg := exCfg "x") (by simp [exCfg, Dict.keys])
  (fun n c h => ⟨(exCfg_valid "x").2.2 n c h, rfl⟩)

/-- C63_daemon_follows_partial: the schedule of a running job changes. -/
example := C63_daemon_follows_partial (cfg := exCfg "y")
  (.again (fails := fun _ => false) (entries := []) (.first (fails := fun _ => false) (entries := []) (exCfg_valid "x") rfl) (exCfg_valid "y") rfl)
  "vm" ⟨"default", "rbd/vm"⟩ "y" rfl rfl

end Verif.Reload
