import Verif.Props.Daemon
/-!
# C80: the steps of a run of a job, C82: waiting for peers is not circular
-/
namespace Verif.Daemon.Spec
open Verif Verif.Repo Verif.Daemon

/-- The steps that are visible from outside. -/
def visible : Act → Bool
  | .backup _ | .pull | .expire | .push | .gc | .callback => true
  | _ => false

/-- What a run is meant to do, in this order: with a backup of its own, or after a backup was made elsewhere. -/
def intended (own : Bool) (tags : Finset String) : List Act :=
  if own then [.backup tags, .pull, .expire, .push, .gc, .callback] else [.pull, .callback]

end Verif.Daemon.Spec

namespace Verif.Daemon
open Verif Verif.Repo Verif.Daemon.Spec

theorem runSteps_prefix (f : Act → Bool) : ∀ l : List Act, (runSteps f l).1 <+: l
  | [] => List.prefix_refl _
  | a :: rest => by
    unfold runSteps
    split
    · exact ⟨rest, rfl⟩
    · exact (List.cons_prefix_cons).2 ⟨rfl, runSteps_prefix f rest⟩

theorem runSteps_stop (f : Act → Bool) : ∀ (l pre post : List Act) (a : Act), (runSteps f l).1 = pre ++ a :: post →
    f a = true → post = []
  | [], pre, post, a, h, _ => by simp [runSteps] at h
  | b :: rest, pre, post, a, h, hf => by
    unfold runSteps at h
    split at h
    · cases pre with
      | nil => simp at h; exact h.2
      | cons x pre => simp at h
    · rename_i hb
      cases pre with
      | nil => simp at h; rw [h.1] at hb; exact absurd hf hb
      | cons x pre =>
        simp only [List.cons_append, List.cons.injEq] at h
        exact runSteps_stop f rest pre post a h.2 hf

theorem runSteps_all (f : Act → Bool) : ∀ l : List Act, (runSteps f l).2 = true → (runSteps f l).1 = l
  | [], _ => rfl
  | a :: rest, h => by
    unfold runSteps at h ⊢
    split at h
    · simp at h
    · rename_i hf
      rw [if_neg hf]
      simp only [] at h ⊢
      rw [runSteps_all f rest h]

theorem runSteps_no_acquire (f : Act → Bool) (fast : Bool) : Act.acquire fast ∉ (runSteps f [.pull, .callback]).1 := by
  intro h
  have := (runSteps_prefix f _).subset h
  simp at this

/-- What a pass that can be planned does: everything before the decision is of no interest here. -/
theorem pass_steps (j : Retry) (p : Pass) (t : Int) (tags : Finset String) (hc : p.connected = true)
    (hp : p.planned = .ok (t, tags)) :
    ∃ start : List Act, (∀ a ∈ start, isWork a = false ∧ visible a = false) ∧
      (Attempted (pass j p).1 ∧ (pass j p).1 = start ++ (runSteps p.failing (backupSteps p tags)).1 ∨
      ¬ Attempted (pass j p).1 ∧ (pass j p).1 = start ++ (runSteps p.failing [.pull, .callback]).1) := by
  have hat : ∀ start : List Act, Attempted (start ++ (runSteps p.failing (backupSteps p tags)).1) :=
    fun start => ⟨p.fast, List.mem_append_right _ (runSteps_head _ _ _)⟩
  unfold pass
  rw [if_neg (by simp [hc]), hp]
  dsimp only
  unfold tryBlock
  split
  · exact ⟨[.connect, .waitUntil (j.deadline p t)], by simp [isWork, visible], .inl ⟨hat _, rfl⟩⟩
  · split
    · refine ⟨[.connect, .waitUntil (j.deadline p t), .askPeers (j.deadline p t)], by simp [isWork, visible], .inr ⟨?_, by simp⟩⟩
      rintro ⟨fast, h⟩
      simp only [List.cons_append, List.nil_append, List.mem_cons, reduceCtorEq, false_or] at h
      exact runSteps_no_acquire _ _ h
    · refine ⟨[.connect, .waitUntil (j.deadline p t), .askPeers (j.deadline p t)], by simp [isWork, visible], .inl ⟨?_, by simp⟩⟩
      have := hat [.connect, .waitUntil (j.deadline p t), .askPeers (j.deadline p t)]
      simpa using this

/-- **C80** Whatever fails: a run does a prefix of what it is meant to do, in order, with the tags that were planned; ... -/
theorem C80_in_order (j : Retry) (p : Pass) (t : Int) (tags : Finset String) (hc : p.connected = true)
    (hp : p.planned = .ok (t, tags)) (own : Bool) (hown : own = true ↔ Attempted (pass j p).1) :
    (pass j p).1.filter visible <+: intended own tags := by
  obtain ⟨start, hs, h⟩ := pass_steps j p t tags hc hp
  have hfil : start.filter visible = [] := List.filter_eq_nil_iff.2 (fun a ha => by simp [(hs a ha).2])
  rcases h with ⟨h1, h2⟩ | ⟨h1, h2⟩
  · obtain rfl := hown.2 h1
    rw [h2, List.filter_append, hfil, List.nil_append]
    exact (runSteps_prefix p.failing (backupSteps p tags)).filter visible
  · obtain rfl : own = false := by cases own with
      | false => rfl
      | true => exact absurd (hown.1 rfl) h1
    rw [h2, List.filter_append, hfil, List.nil_append]
    exact (runSteps_prefix p.failing [.pull, .callback]).filter visible

/-- **C80** ... nothing is done any more after the first step that fails; ... -/
theorem C80_stops_at_failure (j : Retry) (p : Pass) (t : Int) (tags : Finset String) (hc : p.connected = true)
    (hp : p.planned = .ok (t, tags)) (pre post : List Act) (a : Act) (ha : (pass j p).1 = pre ++ a :: post)
    (hw : isWork a = true) (hf : p.failing a = true) : post = [] := by
  obtain ⟨start, hs, h⟩ := pass_steps j p t tags hc hp
  have key : ∀ l : List Act, (pass j p).1 = start ++ (runSteps p.failing l).1 → post = [] := by
    intro l hl
    rw [ha] at hl
    rcases List.append_eq_append_iff.1 hl with ⟨x, h1, h2⟩ | ⟨x, h1, h2⟩
    · cases x with
      | nil =>
        simp only [List.nil_append] at h2
        exact runSteps_stop p.failing l [] post a h2.symm hf
      | cons b x =>
        simp only [List.cons_append, List.cons.injEq] at h2
        have hb : a ∈ start := by rw [h1, h2.1]; simp
        rw [(hs a hb).1] at hw; cases hw
    · exact runSteps_stop p.failing l x post a h2 hf
  rcases h with ⟨_, h⟩ | ⟨_, h⟩ <;> exact key _ h

/-- **C80** ... and if none fails, everything is done. -/
theorem C80_complete (j : Retry) (p : Pass) (t : Int) (tags : Finset String) (hc : p.connected = true)
    (hp : p.planned = .ok (t, tags)) (own : Bool) (hown : own = true ↔ Attempted (pass j p).1)
    (hok : ∀ a ∈ (pass j p).1, isWork a = true → p.failing a = false) :
    (pass j p).1.filter visible = intended own tags := by
  obtain ⟨start, hs, h⟩ := pass_steps j p t tags hc hp
  have hfil : start.filter visible = [] := List.filter_eq_nil_iff.2 (fun a ha => by simp [(hs a ha).2])
  have key : ∀ l : List Act, (∀ a ∈ l, isWork a = true) → (pass j p).1 = start ++ (runSteps p.failing l).1 →
      (runSteps p.failing l).1 = l := by
    intro l hw hl
    apply runSteps_all
    rw [runSteps_failed p l hw]
    simp only [Bool.not_eq_true', failed, List.any_eq_false, Bool.and_eq_true, not_and, Bool.not_eq_true]
    intro a ha hwa
    exact hok a (by rw [hl]; exact List.mem_append_right _ ha) hwa
  rcases h with ⟨h1, h2⟩ | ⟨h1, h2⟩
  · obtain rfl := hown.2 h1
    rw [h2, List.filter_append, hfil, List.nil_append, key _ (backupSteps_work p tags) h2]
    rfl
  · obtain rfl : own = false := by cases own with
      | false => rfl
      | true => exact absurd (hown.1 rfl) h1
    rw [h2, List.filter_append, hfil, List.nil_append, key _ (by simp [isWork]) h2]
    rfl

/-- A run in which pushing fails, and one that is skipped. -/
example : (pass .init { exFail 0 with failing := fun a => a == .push }).1.filter visible =
      [.backup {"daily"}, .pull, .expire, .push] ∧
    (pass .init { exFail 0 with skip := true }).1.filter visible = intended false {"daily"} ∧
    (pass .init { exFail 0 with failing := fun _ => false }).1.filter visible = intended true {"daily"} := by
  decide +kernel

/-! ## C82 -/

/-- The leader has the most revisions of all peers that answered. -/
theorem findLeader_max : ∀ (l : List (String × Answer)) (revs : Nat) (cur : Option (String × Status)) (server : String)
    (st : Status), findLeader l revs cur = .ok (some (server, st)) → (∀ s x, cur = some (s, x) → x.localRevs = revs) →
    (∀ a ∈ l, ∀ x rest, a.2 = .ok (x :: rest) → x.localRevs ≤ st.localRevs) ∧ revs ≤ st.localRevs
  | [], revs, cur, server, st, h, hc => by
    simp only [findLeader, Except.ok.injEq] at h
    exact ⟨by simp, Nat.le_of_eq (hc _ _ h).symm⟩
  | (s, .error e) :: rest, revs, cur, server, st, h, hc => by
    unfold findLeader at h
    obtain ⟨h1, h2⟩ := findLeader_max rest revs cur server st h hc
    refine ⟨?_, h2⟩
    intro a ha x r hx
    rcases List.mem_cons.1 ha with rfl | ha
    · cases hx
    · exact h1 a ha x r hx
  | (s, .ok []) :: rest, revs, cur, server, st, h, hc => by
    unfold findLeader at h; cases h
  | (s, .ok (y :: r)) :: rest, revs, cur, server, st, h, hc => by
    unfold findLeader at h
    split at h
    · rename_i hgt
      obtain ⟨h1, h2⟩ := findLeader_max rest y.localRevs (some (s, y)) server st h (by rintro _ _ ⟨⟩; rfl)
      refine ⟨?_, by omega⟩
      intro a ha x r' hx
      rcases List.mem_cons.1 ha with rfl | ha
      · cases hx; exact h2
      · exact h1 a ha x r' hx
    · rename_i hgt
      obtain ⟨h1, h2⟩ := findLeader_max rest revs cur server st h hc
      refine ⟨?_, h2⟩
      intro a ha x r' hx
      rcases List.mem_cons.1 ha with rfl | ha
      · cases hx; omega
      · exact h1 a ha x r' hx

/-- **C82** The peer a job waits for, or because of which it skips its backup, has more revisions than the job itself and at least
as many as every other peer that answered. -/
theorem C82_best_peer (answers : List (String × Answer)) (own : Nat) (next : Int) (polls : List Poll)
    (h : waitForLeader answers own next polls ≠ some false) :
    ∃ server st rest, (server, Except.ok (st :: rest)) ∈ answers ∧ own < st.localRevs ∧
      (∀ a ∈ answers, ∀ x r, a.2 = .ok (x :: r) → x.localRevs ≤ st.localRevs) ∧
      waitForLeader answers own next polls = monitor next st polls := by
  unfold waitForLeader at h ⊢
  cases hl : findLeader answers own none with
  | error e => rw [hl] at h; exact absurd rfl h
  | ok res =>
    rw [hl] at h
    rcases findLeader_spec _ _ _ _ hl with rfl | ⟨server, st, rest, rfl, hm, hgt⟩
    · exact absurd rfl h
    · exact ⟨server, st, rest, hm, hgt, (findLeader_max _ _ _ _ _ hl (by simp)).1, rfl⟩

/-- A cluster of servers that have the same job.  `revs s` is the number of complete revisions `s` has made; `answers s` what the
other servers tell `s`. -/
structure Cluster where
  servers : List String
  revs : String → Nat
  answers : String → List (String × Answer)

/-- All answers are about servers of the cluster and tell the truth about the number of revisions. -/
def Cluster.Truthful (c : Cluster) : Prop :=
  ∀ s ∈ c.servers, ∀ q st rest, (q, Except.ok (st :: rest)) ∈ c.answers s → q ∈ c.servers ∧ st.localRevs = c.revs q

/-- `s` waits for `q` (or skips its backup because of `q`). -/
def Cluster.Waits (c : Cluster) (next : Int) (polls : List Poll) (s q : String) : Prop :=
  s ∈ c.servers ∧ ∃ st, findLeader (c.answers s) (c.revs s) none = .ok (some (q, st)) ∧
    waitForLeader (c.answers s) (c.revs s) next polls ≠ some false

/-- Waiting chains. -/
inductive Cluster.Chain (c : Cluster) : String → String → Prop
  | one {s q next polls} : c.Waits next polls s q → c.Chain s q
  | more {s q r next polls} : c.Waits next polls s q → c.Chain q r → c.Chain s r

theorem Cluster.Waits.lt {c : Cluster} (ht : c.Truthful) {next : Int} {polls : List Poll} {s q : String}
    (h : c.Waits next polls s q) : c.revs s < c.revs q ∧ q ∈ c.servers := by
  obtain ⟨hs, st, h1, _⟩ := h
  rcases findLeader_spec _ _ _ _ h1 with h | ⟨server, st', rest, h3, hm, hgt⟩
  · cases h
  · cases h3
    obtain ⟨a, b⟩ := ht s hs _ _ _ hm
    exact ⟨by omega, a⟩

/-- **C82** Servers never wait for each other in a circle, ... -/
theorem C82_not_circular (c : Cluster) (ht : c.Truthful) (s : String) : ¬ c.Chain s s := by
  have key : ∀ a b, c.Chain a b → c.revs a < c.revs b := by
    intro a b h
    induction h with
    | one h => exact (h.lt ht).1
    | more h _ ih => have := (h.lt ht).1; omega
  intro h
  exact absurd (key _ _ h) (Nat.lt_irrefl _)

/-- **C82** ... and whatever each of them is told while it waits, at least one of them makes its own backup. -/
theorem C82_someone_runs (c : Cluster) (ht : c.Truthful) (hne : c.servers ≠ []) :
    ∃ s ∈ c.servers, ∀ next polls, waitForLeader (c.answers s) (c.revs s) next polls = some false := by
  obtain ⟨s, hs, hmax⟩ : ∃ s ∈ c.servers, ∀ q ∈ c.servers, c.revs q ≤ c.revs s := by
    generalize c.servers = l at hne
    induction l with
    | nil => exact absurd rfl hne
    | cons a l ih =>
      by_cases hl : l = []
      · subst hl; exact ⟨a, by simp, by simp⟩
      · obtain ⟨s, h1, h2⟩ := ih hl
        by_cases h : c.revs s ≤ c.revs a
        · refine ⟨a, by simp, ?_⟩
          intro q hq
          rcases List.mem_cons.1 hq with rfl | hq
          · exact Nat.le_refl _
          · exact Nat.le_trans (h2 q hq) h
        · refine ⟨s, by simp [h1], ?_⟩
          intro q hq
          rcases List.mem_cons.1 hq with rfl | hq
          · omega
          · exact h2 q hq
  refine ⟨s, hs, fun next polls => ?_⟩
  apply Decidable.byContradiction
  intro h
  obtain ⟨server, st, rest, hm, hgt, _⟩ := C82_best_peer _ _ _ _ h
  obtain ⟨a, b⟩ := ht s hs _ _ _ hm
  have := hmax _ a
  omega

/-- Three servers; the one with one revision waits for the one with three, which has no recent backup yet. -/
def exCluster : Cluster :=
  { servers := ["a", "b", "c"]
    revs := fun s => if s = "a" then 1 else if s = "b" then 3 else 2
    answers := fun s => if s = "a" then [("b", .ok [{ exPeer with lastTime := none }]), ("c", .ok [{ exPeer with localRevs := 2 }])]
      else if s = "b" then [("a", .error .client), ("c", .ok [{ exPeer with localRevs := 2 }])] else [] }

example : exCluster.Truthful ∧ exCluster.Waits (11 * minute) [] "a" "b" ∧
    waitForLeader (exCluster.answers "b") (exCluster.revs "b") (11 * minute) [] = some false := by
  refine ⟨?_, ⟨by decide, { exPeer with lastTime := none }, by decide +kernel, by decide +kernel⟩, by decide +kernel⟩
  intro s hs q st rest hm
  simp only [exCluster, List.mem_cons, List.not_mem_nil, or_false] at hs
  rcases hs with rfl | rfl | rfl <;> simp [exCluster] at hm
  · rcases hm with ⟨rfl, rfl, _⟩ | ⟨rfl, rfl, _⟩ <;> decide +kernel
  · obtain ⟨rfl, rfl, _⟩ := hm; decide +kernel

theorem exCluster_truthful : exCluster.Truthful := by
  intro s hs q st rest hm
  simp only [exCluster, List.mem_cons, List.not_mem_nil, or_false] at hs
  rcases hs with rfl | rfl | rfl <;> simp [exCluster] at hm
  · rcases hm with ⟨rfl, rfl, _⟩ | ⟨rfl, rfl, _⟩ <;> decide +kernel
  · obtain ⟨rfl, rfl, _⟩ := hm; decide +kernel

example := C82_someone_runs exCluster exCluster_truthful (by decide)
example := C82_not_circular exCluster exCluster_truthful
example := C82_best_peer (exCluster.answers "a") (exCluster.revs "a") (11 * minute) [] (by decide +kernel)

example := C80_in_order .init (exFail 0) _ _ rfl rfl true (by unfold Attempted; decide +kernel)
example := C80_stops_at_failure .init { exFail 0 with failing := fun a => a == .push } _ _ rfl rfl
  ((pass .init { exFail 0 with failing := fun a => a == .push }).1.dropLast) [] .push (by decide +kernel) rfl rfl
example := C80_complete .init { exFail 0 with failing := fun _ => false } _ _ rfl rfl true (by unfold Attempted; decide +kernel) (fun _ _ _ => rfl)

end Verif.Daemon
