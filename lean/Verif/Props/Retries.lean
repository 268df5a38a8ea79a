import Verif.Spec.Retries
import Verif.Props.Timeline
import Verif.Props.Daemon
/-!
# Properties C132 and C133: how often a failing job is tried
-/
namespace Verif.Daemon
open Verif Verif.Repo Verif.Daemon.Spec

theorem runs_plans {l : List Run} (h : Runs l) : ∀ p ∈ l.reverse.map Run.pass, Plans p := by
  induction h with
  | nil => simp
  | cons x l h plans does order waits ih =>
    intro p hp
    simp only [List.reverse_cons, List.map_append, List.map_cons, List.map_nil, List.mem_append, List.mem_singleton] at hp
    rcases hp with hp | rfl
    · exact ih p hp
    · exact plans

/-- All of the last runs failed: so many failures in a row. -/
theorem streak_runs (rest : List Run) : ∀ (a : List Run), Runs (a ++ rest) → (∀ x ∈ a, x.Failed) →
    a.length ≤ streak (outcomes ((a ++ rest).reverse.map Run.pass))
  | [], _, _ => Nat.zero_le _
  | x :: a, h, hf => by
    rw [List.cons_append] at h
    cases h with
    | cons _ _ h plans does order waits =>
      have ih := streak_runs rest a h (fun y hy => hf y (by simp [hy]))
      have hp := runs_plans h
      have hx : x.acts = (pass (stateAfter .init ((a ++ rest).reverse.map Run.pass)) x.pass).1 := by
        rw [runForever_eq _ .init hp] at does
        have := List.append_cancel_left does
        simpa using this.symm
      have hx' := hf x (by simp)
      unfold Run.Failed at hx'
      rw [List.cons_append, List.reverse_cons, List.map_append, List.map_cons, List.map_nil, outcomes_append _ hp, streak_append, ← hx, hx']
      simp only [if_true, List.length_cons]
      omega

/-- **C132** As long as a job fails and nobody asks for a run, its `n`-th run after a given one begins no earlier than
`2 + 4 + 8 + … + 256 + 360 + 360 + …` minutes (`n` numbers) after that one. -/
theorem C132_retry_rate (rest : List Run) (old : Run) : ∀ (new : List Run), Runs (new ++ old :: rest) →
    (∀ x ∈ new, x.pass.triggered = false) → (∀ x ∈ (new ++ [old]).tail, x.Failed) →
    ∀ x ∈ (new ++ [old]).head?, old.begins + pauses new.length ≤ x.begins
  | [], _, _, _, x, hx => by
    cases hx
    simp [pauses]
  | x :: new, h, ht, hf, y, hy => by
    simp only [List.cons_append, List.head?_cons, Option.mem_def, Option.some.injEq] at hy
    subst hy
    rw [List.cons_append] at h
    cases h with
    | cons _ _ h plans does order waits =>
      have hf' : ∀ z ∈ new ++ [old], z.Failed := fun z hz => hf z (by simpa using hz)
      obtain ⟨z, hz⟩ : ∃ z, (new ++ [old]).head? = some z := by cases new <;> simp
      have ih := C132_retry_rate rest old new h (fun w hw => ht w (by simp [hw])) (fun w hw => hf' w (List.mem_of_mem_tail hw)) z hz
      have hz' : (new ++ old :: rest).head? = some z := by cases new <;> simpa using hz
      have ho := order z hz'
      have hl : new ++ old :: rest = (new ++ [old]) ++ rest := by simp
      have hs : new.length + 1 ≤ streak (outcomes ((new ++ old :: rest).reverse.map Run.pass)) := by
        have := streak_runs rest (new ++ [old]) (by rw [← hl]; exact h) hf'
        rw [← hl] at this
        simpa using this
      obtain ⟨acts, t, tags, e1, e2, e3⟩ := C32_backoff ((new ++ old :: rest).reverse.map Run.pass) x.pass (by
        intro p hp
        simp only [List.mem_append, List.mem_singleton] at hp
        rcases hp with hp | rfl
        · exact runs_plans h p hp
        · exact plans)
      rw [e1] at does
      have ha : acts = x.acts := by simpa using List.append_cancel_left does
      subst ha
      change _ = some (if streak (outcomes ((new ++ old :: rest).reverse.map Run.pass)) = 0 then t else
        x.pass.now + (min (2 ^ streak (outcomes ((new ++ old :: rest).reverse.map Run.pass))) 360 : Nat) * minute) at e3
      rw [if_neg (by omega)] at e3
      have hw := waits (ht x (by simp)) _ e3
      have hmono : ((min (2 ^ (new.length + 1)) 360 : Nat) : Int) * minute ≤
          (min (2 ^ streak (outcomes ((new ++ old :: rest).reverse.map Run.pass))) 360 : Nat) * minute := by
        apply Int.mul_le_mul_of_nonneg_right _ (by decide)
        have := Nat.pow_le_pow_right (show 0 < 2 by omega) hs
        omega
      simp only [List.length_cons, pauses]
      omega

theorem pauses_lower : ∀ n : Nat, (n : Int) * (360 * minute) ≤ pauses n + 2370 * minute
  | 0 => by decide
  | 1 => by decide
  | 2 => by decide
  | 3 => by decide
  | 4 => by decide
  | 5 => by decide
  | 6 => by decide
  | 7 => by decide
  | 8 => by decide
  | n + 9 => by
    have ih := pauses_lower (n + 8)
    have h : min (2 ^ (n + 8 + 1)) 360 = 360 := by
      have : 2 ^ 9 ≤ 2 ^ (n + 8 + 1) := Nat.pow_le_pow_right (by omega) (by omega)
      omega
    show ((n + 8 + 1 : Nat) : Int) * _ ≤ pauses (n + 8) + ((min (2 ^ (n + 8 + 1)) 360 : Nat) : Int) * minute + _
    rw [h]
    unfold minute at *
    push_cast at *
    omega

/-- **C132** So the number of times a failing job is tried within a period of length `w` is at most `w / 6h` and 8. -/
theorem C132_attempts (rest : List Run) (old : Run) (new : List Run) (h : Runs (new ++ old :: rest))
    (ht : ∀ x ∈ new, x.pass.triggered = false) (hf : ∀ x ∈ (new ++ [old]).tail, x.Failed) (w : Int)
    (hw : ∀ x ∈ (new ++ [old]).head?, x.begins - old.begins ≤ w) :
    ((new ++ [old]).length : Int) ≤ w / (6 * 60 * minute) + 8 := by
  obtain ⟨z, hz⟩ : ∃ z, (new ++ [old]).head? = some z := by cases new <;> simp
  have h1 := C132_retry_rate rest old new h ht hf z hz
  have h2 := hw z hz
  have h3 := pauses_lower new.length
  simp only [List.length_append, List.length_cons, List.length_nil]
  unfold minute at *
  push_cast at *
  omega

/-! ## C133 -/

/-- **C133** (partial) If every step of the runs so far succeeded, the next run of a job nobody has asked to run does not begin before its
planned time.  Missing: runs after one in which the backup was completed and a later step failed, see `C133_false_repeated`; for their number see
`C132_attempts`. -/
theorem C133_waits_partial (x : Run) (l : List Run) (h : Runs (x :: l)) (ht : x.pass.triggered = false) (hf : ∀ y ∈ l.head?, ¬ y.Failed)
    (t : Int) (tags : Finset String) (hp : x.pass.planned = .ok (t, tags)) : t ≤ x.begins := by
  cases h with
  | cons _ _ h plans does order waits =>
    have hs : streak (outcomes (l.reverse.map Run.pass)) = 0 := by
      cases h with
      | nil => rfl
      | cons y l h plans' does' order' waits' =>
        have hy := hf y rfl
        have hp := runs_plans h
        have hx : y.acts = (pass (stateAfter .init (l.reverse.map Run.pass)) y.pass).1 := by
          rw [runForever_eq _ .init hp] at does'
          simpa using (List.append_cancel_left does').symm
        unfold Run.Failed at hy
        rw [List.reverse_cons, List.map_append, List.map_cons, List.map_nil, outcomes_append _ hp, streak_append, ← hx, if_neg hy]
    obtain ⟨acts, t', tags', e1, e2, e3⟩ := C32_backoff (l.reverse.map Run.pass) x.pass (by
      intro p hp
      simp only [List.mem_append, List.mem_singleton] at hp
      rcases hp with hp | rfl
      · exact runs_plans h p hp
      · exact plans)
    rw [e1] at does
    have ha : acts = x.acts := by simpa using List.append_cancel_left does
    subst ha
    change _ = some (if streak (outcomes (l.reverse.map Run.pass)) = 0 then t' else _) at e3
    rw [if_pos hs] at e3
    rw [hp] at e2
    cases e2
    exact waits ht _ e3

/-- A pass in which everything but the callback works: its program cannot be started. -/
def exNoCallback (now : Int) (planned : Except PyErr (Int × Finset String)) : Pass :=
  { connected := true, planned, now, triggered := false, skip := false, fast := true,
    failing := fun a => match a with
      | .callback => true
      | _ => false }

/-- The directory in which a complete revision with the tag `daily` was made at the given time. -/
def exMade (ts : Int) : Dict String RevFile := [("a", ⟨false, mkRev "a" ts {"daily"}⟩)]

/-- Backups every day. -/
def exDaily : Schedule := [("daily", ⟨seconds 86400, 5⟩)]

/-- What a pass does. -/
def exDoes (j : Retry) (p : Pass) : List Act := (pass j p).1

/-- The run at midnight ... -/
def exRun1 : Run :=
  let p := exNoCallback (seconds (100 * 86400 - 3600)) (exDaily.next (seconds (100 * 86400 - 3600)) 0 (Timeline.connected [])
    (seconds (100 * 86400 - 3600)) (seconds (100 * 86400 - 3600)) (seconds (100 * 86400 - 3600)))
  ⟨p, exDoes .init p, seconds (100 * 86400)⟩

/-- ... and the next one: the backup of the first run is complete, and the next slot is at the next midnight. -/
def exRun2 : Run :=
  let now := seconds (100 * 86400 + 300)
  let p := exNoCallback now (exDaily.next now 0 (Timeline.connected (exMade (seconds (100 * 86400 + 1)))) now now now)
  ⟨p, exDoes ⟨1, 120⟩ p, seconds (100 * 86400 + 420)⟩

theorem exRuns : Runs [exRun2, exRun1] := by
  refine .cons _ _ (.cons _ _ .nil ⟨rfl, (seconds (100 * 86400), {"daily"}), by decide +kernel⟩ (by decide +kernel) (by simp) ?_)
    ⟨rfl, (seconds (101 * 86400), {"daily"}), by decide +kernel⟩ (by decide +kernel) (by intro y hy; cases hy; decide) ?_
  · intro _ d hd
    have : deadlineOf exRun1.acts = some (seconds (100 * 86400)) := by decide +kernel
    rw [this] at hd
    cases hd
    decide
  · intro _ d hd
    have : deadlineOf exRun2.acts = some (seconds (100 * 86400 + 420)) := by decide +kernel
    rw [this] at hd
    cases hd
    decide

/-- **C133 is false of the code**: the backup is complete, only the callback could not be started; two minutes later the job makes another backup
that gets the tag of the next slot, which is a day ahead. -/
theorem C133_false_repeated : ∃ (sch : Schedule) (x y : Run), Runs [y, x] ∧
    x.pass.triggered = false ∧ y.pass.triggered = false ∧
    Act.backup {"daily"} ∈ x.acts ∧ (∀ a ∈ x.acts, x.pass.failing a = true → a = .callback) ∧
    y.pass.planned = sch.next y.pass.now 0 (Timeline.connected (exMade (x.begins + seconds 1))) y.pass.now y.pass.now y.pass.now ∧
    y.pass.planned = .ok (x.begins + seconds 86400, {"daily"}) ∧
    Act.backup {"daily"} ∈ y.acts ∧ y.begins = x.begins + seconds 420 :=
  ⟨exDaily, exRun1, exRun2, exRuns, rfl, rfl, by decide +kernel, by decide +kernel, rfl, by decide +kernel, by decide +kernel, by decide⟩

/-- Tests. -/
example : ((([exRun2] ++ [exRun1]).length : Nat) : Int) ≤ seconds 86400 / (6 * 60 * minute) + 8 :=
  C132_attempts [] exRun1 [exRun2] exRuns (by simp; rfl) (by
    intro x hx
    simp only [List.cons_append, List.nil_append, List.tail_cons, List.mem_singleton] at hx
    subst hx
    show failed _ _ = true
    decide +kernel) _ (by intro x hx; cases hx; decide)

example : pauses 1 = 2 * minute ∧ pauses 3 = 14 * minute ∧ pauses 9 = 870 * minute ∧ pauses 10 = 1230 * minute := by decide +kernel

example : seconds (100 * 86400) ≤ exRun1.begins :=
  C133_waits_partial exRun1 [] (by cases exRuns; assumption) rfl (by simp) _ {"daily"} (by decide +kernel)

end Verif.Daemon
