import Verif.Model.Daemon
import Verif.Spec.Daemon
/-!
# C32: retries, C52: skipped backups, C62: the job keeps running
-/
namespace Verif.Daemon
open Verif Verif.Repo Verif.Daemon.Spec

theorem runSteps_failed (p : Pass) : ∀ l : List Act, (∀ a ∈ l, isWork a = true) →
    (runSteps p.failing l).2 = !failed p (runSteps p.failing l).1
  | [], _ => rfl
  | a :: rest, h => by
    have ha := h a (by simp)
    have ih := runSteps_failed p rest (fun x hx => h x (by simp [hx]))
    unfold runSteps
    by_cases hf : p.failing a = true
    · simp [hf, failed, ha]
    · rw [if_neg hf]
      simp only [failed, List.any_cons] at ih ⊢
      rw [ih]; simp [hf]

theorem backupSteps_work (p : Pass) (tags : Finset String) : ∀ a ∈ backupSteps p tags, isWork a = true := by
  intro a ha
  simp only [backupSteps, List.mem_cons, List.not_mem_nil, or_false] at ha
  rcases ha with rfl | rfl | rfl | rfl | rfl | rfl | rfl | rfl | rfl | rfl <;> rfl

theorem tryBlock_failed (p : Pass) (t : Int) (tags : Finset String) :
    (tryBlock p t tags).2 = !failed p (tryBlock p t tags).1 := by
  have h1 := runSteps_failed p _ (backupSteps_work p tags)
  have h2 := runSteps_failed p [.pull, .callback] (by simp [isWork])
  unfold tryBlock
  split
  · exact h1
  · split
    · rw [h2]; simp [failed, isWork]
    · simp only []
      rw [h1]; simp [failed, isWork]

theorem pass_plans {p : Pass} (h : Plans p) (j : Retry) : ∃ t tags, p.planned = .ok (t, tags) ∧
    pass j p = ([.connect, .waitUntil (j.deadline p t)] ++ (tryBlock p (j.deadline p t) tags).1,
        some (j.after (tryBlock p (j.deadline p t) tags).2)) := by
  obtain ⟨hc, ⟨t, tags⟩, hp⟩ := h
  refine ⟨t, tags, hp, ?_⟩
  unfold pass
  rw [if_neg (by simp [hc]), hp]

theorem pass_deadline {p : Pass} (h : Plans p) (j : Retry) : ∃ t tags, p.planned = .ok (t, tags) ∧
    deadlineOf (pass j p).1 = some (j.deadline p t) ∧ (pass j p).2 = some (j.after (!failed p (pass j p).1)) := by
  obtain ⟨t, tags, hp, he⟩ := pass_plans h j
  refine ⟨t, tags, hp, ?_, ?_⟩
  · rw [he]; rfl
  · rw [he, tryBlock_failed]
    simp [failed, isWork]

/-- The retry state after a number of passes. -/
def stateAfter : Retry → List Pass → Retry
  | j, [] => j
  | j, p :: rest => stateAfter (j.after (!failed p (pass j p).1)) rest

theorem runForever_eq : ∀ (ps : List Pass) (j : Retry), (∀ p ∈ ps, Plans p) → ∀ q : Pass,
    runForever (some j) (ps ++ [q]) = runForever (some j) ps ++ [(pass (stateAfter j ps) q).1]
  | [], j, _, q => rfl
  | p :: rest, j, h, q => by
    obtain ⟨t, tags, _, _, h2⟩ := pass_deadline (h p (by simp)) j
    have ih := runForever_eq rest (j.after (!failed p (pass j p).1)) (fun x hx => h x (by simp [hx])) q
    simp only [List.cons_append, runForever, stateAfter, h2, ih]

theorem runForever_length : ∀ (ps : List Pass) (j : Retry), (∀ p ∈ ps, Plans p) →
    (runForever (some j) ps).length = ps.length
  | [], _, _ => rfl
  | p :: rest, j, h => by
    obtain ⟨t, tags, _, _, h2⟩ := pass_deadline (h p (by simp)) j
    simp only [runForever, List.length_cons, h2,
      runForever_length rest (j.after (!failed p (pass j p).1)) (fun x hx => h x (by simp [hx]))]

/-- Which passes failed. -/
def outcomes (ps : List Pass) : List Bool := List.zipWith failed ps (runForever (some .init) ps)

theorem outcomes_append (ps : List Pass) (h : ∀ p ∈ ps, Plans p) (q : Pass) :
    outcomes (ps ++ [q]) = outcomes ps ++ [failed q (pass (stateAfter .init ps) q).1] := by
  unfold outcomes
  rw [runForever_eq ps .init h q, List.zipWith_append (runForever_length ps .init h).symm]
  rfl

theorem streak_append (l : List Bool) (b : Bool) : streak (l ++ [b]) = if b then streak l + 1 else 0 := by
  unfold streak
  rw [List.reverse_append]
  cases b <;> simp

theorem stateAfter_append : ∀ (ps : List Pass) (j : Retry) (q : Pass),
    stateAfter j (ps ++ [q]) = (stateAfter j ps).after (!failed q (pass (stateAfter j ps) q).1)
  | [], j, q => rfl
  | p :: rest, j, q => by simp only [List.cons_append, stateAfter, stateAfter_append rest]

theorem stateAfter_streak (ps : List Pass) (h : ∀ p ∈ ps, Plans p) :
    (stateAfter .init ps).errors = streak (outcomes ps) ∧
    (streak (outcomes ps) ≠ 0 → (stateAfter .init ps).backoff = min (2 ^ streak (outcomes ps)) 360 * 60) := by
  induction ps using List.reverseRecOn with
  | nil => simp [stateAfter, outcomes, streak, Retry.init]
  | append_singleton ps q ih =>
    have h' : ∀ p ∈ ps, Plans p := fun p hp => h p (by simp [hp])
    obtain ⟨h1, h2⟩ := ih h'
    rw [stateAfter_append, outcomes_append ps h', streak_append]
    cases hf : failed q (pass (stateAfter .init ps) q).1 with
    | false => simp [Retry.after]
    | true => simp [Retry.after, h1]

/-- **C32** After `n > 0` consecutive failures the job waits `min(2^n, 360)` minutes; otherwise (also after a
success) it waits for the scheduled time. -/
theorem C32_backoff (ps : List Pass) (q : Pass) (h : ∀ p ∈ ps ++ [q], Plans p) :
    ∃ acts t tags, runForever (some .init) (ps ++ [q]) = runForever (some .init) ps ++ [acts] ∧
      q.planned = .ok (t, tags) ∧
      deadlineOf acts = some (if streak (List.zipWith failed ps (runForever (some .init) ps)) = 0 then t
        else q.now + (min (2 ^ streak (List.zipWith failed ps (runForever (some .init) ps))) 360 : Nat) * minute) := by
  have h' : ∀ p ∈ ps, Plans p := fun p hp => h p (by simp [hp])
  obtain ⟨t, tags, hp, hd, _⟩ := pass_deadline (h q (by simp)) (stateAfter .init ps)
  obtain ⟨h1, h2⟩ := stateAfter_streak ps h'
  refine ⟨_, t, tags, runForever_eq ps .init h' q, hp, ?_⟩
  rw [hd]
  have e : streak (List.zipWith failed ps (runForever (some .init) ps)) = (stateAfter .init ps).errors := h1.symm
  have e2 : streak (outcomes ps) = (stateAfter .init ps).errors := h1.symm
  rw [e2] at h2
  rw [e]
  generalize stateAfter .init ps = j at *
  unfold Retry.deadline
  by_cases hz : j.errors = 0
  · rw [if_neg (by simp [hz]), if_pos hz]
  · rw [if_pos hz, if_neg hz, h2 hz]
    generalize min (2 ^ j.errors) 360 = m
    unfold seconds minute
    rw [Option.some_inj]
    omega

/-- **C32** The waiting time after another failure is not shorter, and never longer than six hours. -/
theorem C32_bounded_monotone (ps : List Pass) (q r : Pass) (h : ∀ p ∈ ps ++ [q, r], Plans p)
    (acts acts' : List Act) (d d' : Int)
    (hrun : runForever (some .init) (ps ++ [q, r]) = runForever (some .init) ps ++ [acts, acts'])
    (hd : deadlineOf acts = some d) (hd' : deadlineOf acts' = some d') (hf : failed q acts = true) :
    d' - r.now ≤ 6 * 60 * minute ∧
    (streak (List.zipWith failed ps (runForever (some .init) ps)) ≠ 0 → d - q.now ≤ d' - r.now) := by
  have h' : ∀ p ∈ ps ++ [q], Plans p := fun p hp => h p (by simp at hp ⊢; tauto)
  have h'' : ∀ p ∈ ps, Plans p := fun p hp => h p (by simp [hp])
  obtain ⟨a1, t1, g1, e1, _, k1⟩ := C32_backoff ps q h'
  obtain ⟨a2, t2, g2, e2, _, k2⟩ := C32_backoff (ps ++ [q]) r (by simpa using h)
  have hl : ps ++ [q, r] = ps ++ [q] ++ [r] := by simp
  rw [hl, e2, e1, List.append_assoc] at hrun
  have hrun := List.append_cancel_left hrun
  simp only [List.cons_append, List.nil_append, List.cons.injEq, and_true] at hrun
  obtain ⟨rfl, rfl⟩ := hrun
  rw [hd] at k1
  rw [hd', e1, List.zipWith_append (runForever_length ps .init h'').symm] at k2
  simp only [List.zipWith_cons_cons, List.zipWith_nil_right, hf, streak_append, if_true] at k2
  generalize streak (List.zipWith failed ps (runForever (some .init) ps)) = n at k1 k2 ⊢
  rw [if_neg (by omega)] at k2
  cases k2
  have hmin : (0 : Int) ≤ minute := by decide
  have key : ∀ m : Nat, m ≤ 360 → ((m : Nat) : Int) * minute ≤ 6 * 60 * minute := by
    intro m hm
    exact Int.mul_le_mul_of_nonneg_right (by omega) hmin
  constructor
  · have := key (min (2 ^ (n + 1)) 360) (by omega)
    omega
  · intro hn
    rw [if_neg hn] at k1
    cases k1
    have : (((min (2 ^ n) 360 : Nat) : Int)) * minute ≤ ((min (2 ^ (n + 1)) 360 : Nat) : Int) * minute := by
      apply Int.mul_le_mul_of_nonneg_right _ hmin
      have : 2 ^ n ≤ 2 ^ (n + 1) := Nat.pow_le_pow_right (by omega) (by omega)
      omega
    omega

/-- A pass in which the backup fails. -/
def exFail (now : Int) : Pass :=
  { connected := true, planned := .ok (5, {"daily"}), now, triggered := false, skip := false, fast := true,
    failing := fun a => match a with
      | .backup _ => true
      | _ => false }

/-- The hypotheses are met: after two failures the third attempt is four minutes later. -/
example : (∀ p ∈ [exFail 0, exFail 10] ++ [exFail 100], Plans p) ∧
    (runForever (some .init) [exFail 0, exFail 10, exFail 100]).map deadlineOf =
      [some 5, some (10 + 2 * minute), some (100 + 4 * minute)] ∧
    streak (List.zipWith failed [exFail 0, exFail 10] (runForever (some .init) [exFail 0, exFail 10])) = 2 := by
  refine ⟨?_, by decide +kernel, by decide +kernel⟩
  intro p hp
  simp only [List.cons_append, List.nil_append, List.mem_cons, List.not_mem_nil, or_false] at hp
  rcases hp with rfl | rfl | rfl <;> exact ⟨rfl, _, rfl⟩

/-- **C62 (partial)** As long as reading the repository and planning never fail, the job goes on forever, whatever
else fails.  Missing: failures of these two, see `C62_false_loop_ends`. -/
theorem C62_keeps_running_partial (ps : List Pass) (h : ∀ p ∈ ps, Plans p) :
    (runForever (some .init) ps).length = ps.length := runForever_length ps .init h

/-- **C62 is false of the code**: one failure to read the repository directory (for example an unreadable
metadata file or no space for a directory) ends the loop: nothing is done any more although everything works again. -/
theorem C62_false_loop_ends : ∃ p : Pass, p.connected = false ∧
    ∀ ps : List Pass, runForever (some .init) (p :: ps) = [[.connect]] := by
  refine ⟨{ exFail 0 with connected := false }, rfl, fun ps => ?_⟩
  cases ps <;> rfl

/-! ## C52 -/

theorem runSteps_head (f : Act → Bool) (a : Act) (l : List Act) : a ∈ (runSteps f (a :: l)).1 := by
  unfold runSteps; split <;> simp

theorem findLeader_spec : ∀ (l : List (String × Answer)) (revs : Nat) (cur : Option (String × Status))
    (res : Option (String × Status)), findLeader l revs cur = .ok res →
    res = cur ∨ ∃ server st rest, res = some (server, st) ∧ (server, Except.ok (st :: rest)) ∈ l ∧ revs < st.localRevs
  | [], revs, cur, res, h => by cases h; exact .inl rfl
  | (s, .error e) :: rest, revs, cur, res, h => by
    rcases findLeader_spec rest revs cur res h with h | ⟨a, b, c, h1, h2, h3⟩
    · exact .inl h
    · exact .inr ⟨a, b, c, h1, by simp [h2], h3⟩
  | (s, .ok []) :: rest, revs, cur, res, h => by cases h
  | (s, .ok (st :: r)) :: rest, revs, cur, res, h => by
    simp only [findLeader] at h
    split at h
    · rename_i hgt
      rcases findLeader_spec rest _ _ res h with h | ⟨a, b, c, h1, h2, h3⟩
      · exact .inr ⟨s, st, r, h, by simp, hgt⟩
      · exact .inr ⟨a, b, c, h1, by simp [h2], by omega⟩
    · rcases findLeader_spec rest _ _ res h with h | ⟨a, b, c, h1, h2, h3⟩
      · exact .inl h
      · exact .inr ⟨a, b, c, h1, by simp [h2], h3⟩

/-- A report of the leader: its first answer or a later one. -/
def Reported (st : Status) (polls : List Poll) (x : Status) : Prop :=
  x = st ∨ ∃ p ∈ polls, ∃ rest, p.answer = .ok (x :: rest)

theorem recent_iff (st : Status) (t : Int) : st.recent t = true ↔ Recent st t := by
  unfold Status.recent Recent seconds minute
  cases st.lastTime with
  | none => simp
  | some x => simp

theorem idle_iff (st : Status) (t : Int) : (st.status = "" ∨ st.notScheduled t = true) ↔ Idle st t := by
  unfold Status.notScheduled Idle seconds minute
  cases st.nextTime with
  | none => simp
  | some x => simp

theorem monitor_true (next : Int) : ∀ (polls : List Poll) (st : Status), monitor next st polls = some true →
    ∃ x, Reported st polls x ∧ Recent x next
  | [], st, h => by
    unfold monitor at h
    split at h
    · rename_i hr; exact ⟨st, .inl rfl, (recent_iff _ _).1 hr⟩
    · split at h
      · cases h
      · split at h
        · cases h
        · cases h
  | p :: rest, st, h => by
    unfold monitor at h
    split at h
    · rename_i hr; exact ⟨st, .inl rfl, (recent_iff _ _).1 hr⟩
    · split at h
      · cases h
      · split at h
        · cases h
        · simp only [] at h
          split at h
          · cases h
          · cases hp : p.answer with
            | error e => rw [hp] at h; cases h
            | ok l =>
              cases l with
              | nil => rw [hp] at h; cases h
              | cons y ys =>
                rw [hp] at h
                obtain ⟨x, hx, hr⟩ := monitor_true next rest y h
                refine ⟨x, .inr ?_, hr⟩
                rcases hx with rfl | ⟨p', hp', r, he⟩
                · exact ⟨p, by simp, ys, hp⟩
                · exact ⟨p', by simp [hp'], r, he⟩

/-- **C52** A job skips its own backup only if it was not asked to run immediately and a peer with strictly more
revisions reported a backup made less than five minutes before the scheduled time, or later. -/
theorem C52_skips_only_if (j : Retry) (p : Pass) (answers : List (String × Answer)) (own : Nat) (polls : List Poll)
    (h : Plans p)
    (hskip : ∀ d, deadlineOf (pass j p).1 = some d → p.skip = true → waitForLeader answers own d polls = some true)
    (hno : ¬ Attempted (pass j p).1) :
    p.triggered = false ∧ ∃ d server st rest, deadlineOf (pass j p).1 = some d ∧
      (server, Except.ok (st :: rest)) ∈ answers ∧ own < st.localRevs ∧ ∃ x, Reported st polls x ∧ Recent x d := by
  obtain ⟨t, tags, hp, he⟩ := pass_plans h j
  have hd : deadlineOf (pass j p).1 = some (j.deadline p t) := by rw [he]; rfl
  have hhead : Act.acquire p.fast ∈ (runSteps p.failing (backupSteps p tags)).1 := runSteps_head _ _ _
  rw [he] at hno
  unfold tryBlock at hno
  have h1 : p.triggered = false := by
    cases ht : p.triggered with
    | false => rfl
    | true =>
      exfalso; apply hno
      rw [if_pos ht]
      exact ⟨p.fast, List.mem_append_right _ hhead⟩
  have h2 : p.skip = true := by
    cases hs : p.skip with
    | true => rfl
    | false =>
      exfalso; apply hno
      rw [if_neg (by simp [h1]), if_neg (by simp [hs])]
      exact ⟨p.fast, List.mem_append_right _ (List.mem_append_right _ hhead)⟩
  refine ⟨h1, ?_⟩
  have hw := hskip _ hd h2
  unfold waitForLeader at hw
  cases hl : findLeader answers own none with
  | error e => rw [hl] at hw; cases hw
  | ok res =>
    rw [hl] at hw
    rcases findLeader_spec _ _ _ _ hl with rfl | ⟨server, st, rest, rfl, hm, hgt⟩
    · cases hw
    · obtain ⟨x, hx, hr⟩ := monitor_true _ _ _ hw
      exact ⟨_, server, st, rest, hd, hm, hgt, x, hx, hr⟩

/-- A poll that ends the waiting: an immediate run is requested, the peer does not answer or does not know the job, or
its job is stopped or not scheduled. -/
def Ends (p : Poll) (scheduled : Int) : Prop :=
  p.event = true ∨ (∀ x rest, p.answer ≠ .ok (x :: rest)) ∨ ∃ x rest, p.answer = .ok (x :: rest) ∧ Idle x scheduled

theorem monitor_false (next : Int) : ∀ (polls : List Poll) (st : Status),
    (∀ x, Reported st polls x → ¬ Recent x next) → (Idle st next ∨ ∃ p ∈ polls, Ends p next) →
    monitor next st polls = some false
  | polls, st, hr, hend => by
    have h0 : ¬ st.recent next = true := fun h => hr st (.inl rfl) ((recent_iff _ _).1 h)
    unfold monitor
    rw [if_neg h0]
    by_cases h1 : st.status = ""
    · rw [if_pos h1]
    rw [if_neg h1]
    by_cases h2 : st.notScheduled next = true
    · rw [if_pos h2]
    rw [if_neg h2]
    have hni : ¬ Idle st next := by rw [← idle_iff]; simp [h1, h2]
    rcases hend with hi | ⟨p, hp, he⟩
    · exact absurd hi hni
    match polls, hr, hp with
    | q :: rest, hr, hp =>
      simp only []
      by_cases hq : q.event = true
      · rw [if_pos hq]
      rw [if_neg hq]
      cases ha : q.answer with
      | error e => rfl
      | ok l =>
        cases l with
        | nil => rfl
        | cons y ys =>
          refine monitor_false next rest y ?_ ?_
          · intro x hx
            refine hr x (.inr ?_)
            rcases hx with rfl | ⟨p', hp', r, he'⟩
            · exact ⟨q, by simp, ys, ha⟩
            · exact ⟨p', by simp [hp'], r, he'⟩
          · rcases List.mem_cons.1 hp with rfl | hp
            · rcases he with he | he | ⟨x, r, he, hi⟩
              · exact absurd he hq
              · exact absurd ha (he y ys)
              · rw [ha] at he; cases he; exact .inl hi
            · exact .inr ⟨p, hp, he⟩

theorem findLeader_none : ∀ (l : List (String × Answer)) (revs : Nat) (cur : Option (String × Status)),
    (∀ a ∈ l, ∀ st rest, a.2 = .ok (st :: rest) → st.localRevs ≤ revs) →
    findLeader l revs cur = .ok cur ∨ ∃ e, findLeader l revs cur = .error e
  | [], revs, cur, _ => .inl rfl
  | (s, .error e) :: rest, revs, cur, h => findLeader_none rest revs cur (fun a ha => h a (by simp [ha]))
  | (s, .ok []) :: rest, revs, cur, h => .inr ⟨_, rfl⟩
  | (s, .ok (st :: r)) :: rest, revs, cur, h => by
    simp only [findLeader]
    rw [if_neg (by have := h (s, .ok (st :: r)) (by simp) st r rfl; omega)]
    exact findLeader_none rest revs cur (fun a ha => h a (by simp [ha]))

/-- **C52** The job makes its own backup if an immediate run was requested. -/
theorem C52_immediate (j : Retry) (p : Pass) (h : Plans p) (ht : p.triggered = true) : Attempted (pass j p).1 := by
  obtain ⟨t, tags, hp, he⟩ := pass_plans h j
  rw [he]
  unfold tryBlock
  rw [if_pos ht]
  exact ⟨p.fast, List.mem_append_right _ (runSteps_head _ _ _)⟩

/-- **C52** The job makes its own backup if no peer answers with more revisions, or if none of the peers with more
revisions reports a recent backup and the waiting ends (stopped, not scheduled, not reachable, or immediate run requested). -/
theorem C52_runs_own (j : Retry) (p : Pass) (answers : List (String × Answer)) (own : Nat) (polls : List Poll)
    (h : Plans p)
    (hskip : ∀ d, deadlineOf (pass j p).1 = some d → p.skip = true → waitForLeader answers own d polls = some true)
    (hcase : (∀ a ∈ answers, ∀ st rest, a.2 = .ok (st :: rest) → st.localRevs ≤ own) ∨
      ∀ d, deadlineOf (pass j p).1 = some d → ∀ a ∈ answers, ∀ st rest, a.2 = .ok (st :: rest) → own < st.localRevs →
        (∀ x, Reported st polls x → ¬ Recent x d)) :
    Attempted (pass j p).1 := by
  by_contra hno
  obtain ⟨_, d, server, st, rest, hd, hm, hgt, x, hx, hr⟩ := C52_skips_only_if j p answers own polls h hskip hno
  rcases hcase with hc | hc
  · have := hc _ hm st rest rfl; omega
  · exact hc d hd _ hm st rest rfl hgt x hx hr

/-- **C52** Waiting for a peer ends: with the answer "run your own backup" if the peer is stopped, not scheduled, not
reachable, or if an immediate run is requested, and no recent backup was reported. -/
theorem C52_waiting_ends (answers : List (String × Answer)) (own : Nat) (d : Int) (polls : List Poll)
    (hrec : ∀ a ∈ answers, ∀ st rest, a.2 = .ok (st :: rest) → own < st.localRevs → (∀ x, Reported st polls x → ¬ Recent x d))
    (hend : (∃ p ∈ polls, Ends p d) ∨
      ∀ a ∈ answers, ∀ st rest, a.2 = .ok (st :: rest) → own < st.localRevs → Idle st d) :
    waitForLeader answers own d polls = some false := by
  unfold waitForLeader
  cases hl : findLeader answers own none with
  | error e => rfl
  | ok res =>
    rcases findLeader_spec _ _ _ _ hl with rfl | ⟨server, st, rest, rfl, hm, hgt⟩
    · rfl
    · simp only []
      apply monitor_false
      · exact hrec _ hm st rest rfl hgt
      · rcases hend with hend | hend
        · exact .inr hend
        · exact .inl (hend _ hm st rest rfl hgt)

/-- A peer that has made a backup a minute before. -/
def exPeer : Status := { localRevs := 3, lastTime := some (10 * minute), status := "finished", nextTime := none }

/-- The hypotheses are met: a backup is skipped because of a recent one, and is made if the peer is stopped. -/
example : waitForLeader [("a", .error .client), ("b", .ok [exPeer])] 2 (11 * minute) [] = some true ∧
    waitForLeader [("b", .ok [{ exPeer with lastTime := none }])] 2 (11 * minute) [⟨false, .error .client⟩] = some false ∧
    waitForLeader [("b", .ok [{ exPeer with lastTime := none }])] 2 (11 * minute) [] = none ∧
    (pass .init { exFail 0 with skip := true }).1 = [.connect, .waitUntil 5, .askPeers 5, .pull, .callback] := by
  decide +kernel

/-! ### The theorems of this file applied -/

theorem exFail_plans (now : Int) : Plans (exFail now) := ⟨rfl, _, rfl⟩

/-- C32_backoff, C32_bounded_monotone, C62_keeps_running_partial: three failing passes. -/
example := C32_backoff [exFail 0, exFail 10] (exFail 100) (by
  intro p hp
  simp only [List.cons_append, List.nil_append, List.mem_cons, List.not_mem_nil, or_false] at hp
  rcases hp with rfl | rfl | rfl <;> exact exFail_plans _)
example := C32_bounded_monotone [exFail 0] (exFail 10) (exFail 100) (by
  intro p hp
  simp only [List.cons_append, List.nil_append, List.mem_cons, List.not_mem_nil, or_false] at hp
  rcases hp with rfl | rfl | rfl <;> exact exFail_plans _) _ _ (10 + 2 * minute) (100 + 4 * minute) rfl (by decide +kernel)
  (by decide +kernel) (by decide +kernel)
example := C62_keeps_running_partial [exFail 0, exFail 10, exFail 100] (by
  intro p hp
  simp only [List.mem_cons, List.not_mem_nil, or_false] at hp
  rcases hp with rfl | rfl | rfl <;> exact exFail_plans _)

/-- C52_skips_only_if: a recent backup on the other server. -/
example := C52_skips_only_if .init { exFail 0 with skip := true } [("b", .ok [{ exPeer with lastTime := some 0 }])] 2 [] (exFail_plans 0)
  (by intro d hd _; cases hd; decide +kernel) (by unfold Attempted; decide +kernel)

/-- C52_immediate -/
example := C52_immediate .init { exFail 0 with triggered := true, skip := true } (exFail_plans 0) rfl

/-- C52_runs_own, C52_waiting_ends: the other server does not have more revisions; the other server has no recent backup and
does not answer any more. -/
example := C52_runs_own .init { exFail 0 with skip := false } [("b", .ok [exPeer])] 3 [] (exFail_plans 0)
  (by intro d hd h; cases h) (.inl (by
    intro a ha st rest h
    cases ha with
    | head => cases h; decide
    | tail _ h => cases h))
example := C52_waiting_ends [("b", .ok [{ exPeer with lastTime := none }])] 2 (11 * minute) [⟨false, .error .client⟩]

end Verif.Daemon
