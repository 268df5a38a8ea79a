import Verif.Model.Requests
import Verif.Props.Api
/-!
# C84: a request to run a job now
-/
namespace Verif.Requests

/-- The scheduled time never comes while a request is pending (before the job has noticed the request or made an attempt): no timer
of a scheduled time expires in these events while the job waits for the deadline, up to the first attempt. -/
def NotDue : Job → List Ev → Prop
  | _, [] => True
  | j, e :: rest =>
    (e = .timer → j.phase ≠ .deadline none) ∧ ∀ o j', step j e = some (o, j') → .attempt ∈ o ∨ NotDue j' rest

/-- The job has a request it will notice. -/
structure Pending (j : Job) : Prop where
  flag : j.flag = true
  phase : j.phase ≠ .deadline (some false)

theorem Pending.step {j j' : Job} {e : Ev} {o : List Out} (h : Pending j) (hd : e = .timer → j.phase ≠ .deadline none)
    (hs : step j e = some (o, j')) : .attempt ∈ o ∨ Pending j' ∧ ∀ t, .woken t ∉ o := by
  obtain ⟨ph, fl⟩ := j
  obtain ⟨rfl, h2⟩ : fl = true ∧ _ := ⟨h.flag, h.phase⟩
  dsimp only at h2 hd
  cases e with
  | request => cases hs; exact .inr ⟨⟨rfl, h2⟩, by simp⟩
  | start =>
    cases ph <;> simp only [Requests.step] at hs <;> cases hs
    exact .inr ⟨⟨rfl, by simp⟩, by simp⟩
  | stop => cases hs; exact .inr ⟨⟨rfl, by simp⟩, by simp⟩
  | plan ok =>
    cases ph <;> simp only [Requests.step] at hs <;> cases hs
    exact .inr ⟨⟨rfl, by cases ok <;> simp⟩, by simp⟩
  | timer =>
    cases ph <;> simp only [Requests.step] at hs <;> cases hs
    · rename_i f
      match f with
      | none => exact absurd rfl (hd rfl)
      | some true => exact .inr ⟨⟨rfl, by simp [first]⟩, by simp⟩
      | some false => exact absurd rfl h2
    · exact .inr ⟨⟨rfl, by simp⟩, by simp⟩
  | wake =>
    cases ph <;> simp only [Requests.step] at hs <;> cases hs
    · rename_i f
      match f with
      | none => exact .inr ⟨⟨rfl, by simp [first]⟩, by simp⟩
      | some true => exact .inr ⟨⟨rfl, by simp [first]⟩, by simp⟩
      | some false => exact absurd rfl h2
    · exact .inr ⟨⟨rfl, by simp⟩, by simp⟩
  | resume =>
    match ph with
    | .deadline (some true) => simp only [Requests.step] at hs; cases hs; exact .inl (by simp)
    | .deadline (some false) => exact absurd rfl h2
    | .monitoring (some true) => simp only [Requests.step] at hs; cases hs; exact .inl (by simp)
    | .monitoring (some false) => simp only [Requests.step] at hs; cases hs; exact .inr ⟨⟨rfl, by simp⟩, by simp⟩
    | .deadline none | .monitoring none | .stopped | .crashed | .planning | .asking | .own | .skipping =>
      simp only [Requests.step] at hs; cases hs
  | peers d =>
    match ph, d with
    | .asking, some true => simp only [Requests.step] at hs; cases hs; exact .inr ⟨⟨rfl, by simp⟩, by simp⟩
    | .asking, some false => simp only [Requests.step] at hs; cases hs; exact .inl (by simp)
    | .asking, none => simp only [Requests.step] at hs; cases hs; exact .inr ⟨⟨rfl, by simp⟩, by simp⟩
    | .deadline _, _ | .monitoring _, _ | .stopped, _ | .crashed, _ | .planning, _ | .own, _ | .skipping, _ =>
      simp only [Requests.step] at hs; cases hs
  | done =>
    cases ph <;> simp only [Requests.step] at hs <;> cases hs
    · exact .inr ⟨⟨rfl, by simp⟩, by simp⟩
    · exact .inr ⟨⟨rfl, by simp⟩, by simp⟩

theorem Pending.runs {evs : List Ev} : ∀ {j j' : Job} {os : List Out}, Pending j → NotDue j evs → runs j evs = some (os, j') →
    .attempt ∈ os ∨ Pending j' ∧ ∀ t, .woken t ∉ os := by
  induction evs with
  | nil => intro j j' os h _ hr; cases hr; exact .inr ⟨h, by simp⟩
  | cons e rest ih =>
    intro j j' os h hd hr
    unfold Requests.runs at hr
    split at hr
    · cases hr
    · rename_i o j1 hs
      split at hr
      · cases hr
      · rename_i os' j2 hr'
        cases hr
        rcases h.step hd.1 hs with h' | ⟨h', hw⟩
        · exact .inl (List.mem_append_left _ h')
        · rcases hd.2 _ _ hs with h1 | h1
          · exact .inl (List.mem_append_left _ h1)
          · rcases ih h' h1 hr' with h2 | ⟨h2, h3⟩
            · exact .inl (List.mem_append_right _ h2)
            · exact .inr ⟨h2, by simp only [List.mem_append, not_or]; exact fun t => ⟨hw t, h3 t⟩⟩

/-- **C84** After a request - unless the scheduled time comes at the same moment - whatever happens: the job has queued for a slot to
make its own backup, or the request is still recorded and the job has not been through a wait for its scheduled time since. -/
theorem C84_not_forgotten (j : Job) (evs : List Ev) (os : List Out) (j' : Job) (hp : j.phase ≠ .deadline (some false))
    (hd : NotDue { j with flag := true } evs) (hr : runs j (.request :: evs) = some (os, j')) :
    .attempt ∈ os ∨ j'.flag = true ∧ ∀ t, .woken t ∉ os := by
  unfold runs at hr
  simp only [step] at hr
  split at hr
  · cases hr
  · rename_i os' j2 hr'
    cases hr
    rcases Pending.runs (j := { j with flag := true }) ⟨rfl, hp⟩ hd hr' with h | ⟨h, hw⟩
    · exact .inl (by simpa using h)
    · exact .inr ⟨h.flag, by simpa using hw⟩

/-! A pass that has begun may still skip, but no later one. -/

/-- Places from which a job can leave the backup to a peer without waiting for a deadline first. -/
def Late : Phase → Bool
  | .asking | .monitoring _ => true
  | _ => false

theorem skips_step {j j' : Job} {e : Ev} {o : List Out} (hs : step j e = some (o, j')) (hw : ∀ t, .woken t ∉ o) :
    o.count .skip + (Late j'.phase).toNat ≤ (Late j.phase).toNat := by
  obtain ⟨ph, fl⟩ := j
  cases e with
  | request => cases hs; simp
  | stop => cases hs; simp [Late]
  | start | done | timer => cases ph <;> simp only [step] at hs <;> cases hs <;> simp [Late]
  | plan ok => cases ph <;> simp only [step] at hs <;> cases hs; cases ok <;> simp [Late]
  | wake => cases ph <;> cases fl <;> simp only [step] at hs <;> cases hs <;> simp [Late]
  | resume =>
    match ph with
    | .deadline (some true) => simp only [Requests.step] at hs; cases hs; exact absurd (by simp) (hw true)
    | .deadline (some false) => simp only [Requests.step] at hs; cases hs; exact absurd (by simp) (hw false)
    | .monitoring (some true) => simp only [Requests.step] at hs; cases hs; simp [Late]
    | .monitoring (some false) => simp only [Requests.step] at hs; cases hs; simp [Late]
    | .deadline none | .monitoring none | .stopped | .crashed | .planning | .asking | .own | .skipping =>
      simp only [Requests.step] at hs; cases hs
  | peers d =>
    match ph, d with
    | .asking, some true => simp only [Requests.step] at hs; cases hs; simp [Late]
    | .asking, some false => simp only [Requests.step] at hs; cases hs; simp [Late]
    | .asking, none => simp only [Requests.step] at hs; cases hs; simp [Late]
    | .deadline _, _ | .monitoring _, _ | .stopped, _ | .crashed, _ | .planning, _ | .own, _ | .skipping, _ =>
      simp only [Requests.step] at hs; cases hs

theorem skips_runs {evs : List Ev} : ∀ {j j' : Job} {os : List Out}, runs j evs = some (os, j') → (∀ t, .woken t ∉ os) →
    os.count .skip + (Late j'.phase).toNat ≤ (Late j.phase).toNat := by
  induction evs with
  | nil => intro j j' os hr _; cases hr; simp
  | cons e rest ih =>
    intro j j' os hr hw
    unfold runs at hr
    split at hr
    · cases hr
    · rename_i o j1 hs
      split at hr
      · cases hr
      · rename_i os' j2 hr'
        cases hr
        simp only [List.mem_append, not_or] at hw
        have h1 := skips_step hs (fun t => (hw t).1)
        have h2 := ih hr' (fun t => (hw t).2)
        rw [List.count_append]
        omega

/-- **C84** ... so the job leaves at most the pass it is in to a peer before it makes the backup that was asked for; ... -/
theorem C84_skips_at_most_once (j : Job) (evs : List Ev) (os : List Out) (j' : Job) (hp : j.phase ≠ .deadline (some false))
    (hd : NotDue { j with flag := true } evs) (hr : runs j (.request :: evs) = some (os, j')) :
    .attempt ∈ os ∨ os.count .skip ≤ 1 := by
  rcases C84_not_forgotten j evs os j' hp hd hr with h | ⟨_, h⟩
  · exact .inl h
  · have := skips_runs hr h
    exact .inr (by cases hb : Late j.phase <;> simp [hb] at this <;> omega)

/-- The job will continue if nothing goes wrong. -/
def Alive (j : Job) : Prop := j.phase ≠ .stopped ∧ j.phase ≠ .crashed

/-- **C84** ... the job is never stuck: from every state of a running job with a recorded request it can get to the attempt without
its scheduled time coming, and it takes the request itself as the reason if it is waiting for that time. -/
theorem C84_can_run (j : Job) (ha : Alive j) (hf : j.flag = true) (hp : j.phase ≠ .deadline (some false)) :
    ∃ evs os j', runs j evs = some (os, j') ∧ .attempt ∈ os ∧ .timer ∉ evs ∧ .request ∉ evs := by
  obtain ⟨ph, fl⟩ := j
  obtain rfl : fl = true := hf
  obtain ⟨h1, h2⟩ := ha
  match ph with
  | .stopped => exact absurd rfl h1
  | .crashed => exact absurd rfl h2
  | .planning => exact ⟨[.plan true, .wake, .resume], _, _, rfl, by simp, by simp, by simp⟩
  | .deadline none => exact ⟨[.wake, .resume], _, _, rfl, by simp, by simp, by simp⟩
  | .deadline (some true) => exact ⟨[.resume], _, _, rfl, by simp, by simp, by simp⟩
  | .deadline (some false) => exact absurd rfl hp
  | .asking => exact ⟨[.peers none, .wake, .resume], _, _, rfl, by simp, by simp, by simp⟩
  | .monitoring none => exact ⟨[.wake, .resume], _, _, rfl, by simp, by simp, by simp⟩
  | .monitoring (some true) => exact ⟨[.resume], _, _, rfl, by simp, by simp, by simp⟩
  | .monitoring (some false) => exact ⟨[.resume, .peers none, .wake, .resume], _, _, rfl, by simp, by simp, by simp⟩
  | .own => exact ⟨[.done, .plan true, .wake, .resume], _, _, rfl, by simp, by simp, by simp⟩
  | .skipping => exact ⟨[.done, .plan true, .wake, .resume], _, _, rfl, by simp, by simp, by simp⟩

/-! At most one immediate run for each request. -/

/-- The wait for a deadline that is over because of the event has the event still set. -/
def Sound (j : Job) : Prop := (j.phase = .deadline (some true) ∨ j.phase = .monitoring (some true)) → j.flag = true

theorem once_step {j j' : Job} {e : Ev} {o : List Out} (hi : Sound j) (hs : step j e = some (o, j')) :
    Sound j' ∧ o.count (.woken true) + j'.flag.toNat ≤ j.flag.toNat + (if e = .request then 1 else 0) := by
  obtain ⟨ph, fl⟩ := j
  cases e with
  | request => cases hs; exact ⟨fun _ => rfl, by simp⟩
  | stop => cases hs; exact ⟨by simp [Sound], by simp⟩
  | start | done => cases ph <;> simp only [step] at hs <;> cases hs <;> exact ⟨by simp [Sound], by simp⟩
  | plan ok => cases ph <;> simp only [step] at hs <;> cases hs; cases ok <;> exact ⟨by simp [Sound], by simp⟩
  | timer =>
    cases ph <;> simp only [step] at hs <;> cases hs <;> rename_i f <;>
      (match f with
       | none => exact ⟨by simp [Sound, first], by simp⟩
       | some true => exact ⟨by simpa [Sound, first] using hi, by simp⟩
       | some false => exact ⟨by simp [Sound, first], by simp⟩)
  | wake => cases ph <;> cases fl <;> simp only [step] at hs <;> cases hs <;> exact ⟨by simp [Sound], by simp⟩
  | resume =>
    match ph with
    | .deadline (some true) =>
      have hfl : fl = true := hi (.inl rfl)
      simp only [Requests.step] at hs; cases hs; exact ⟨by simp [Sound], by simp [hfl]⟩
    | .deadline (some false) => simp only [Requests.step] at hs; cases hs; exact ⟨by simp [Sound], by simp⟩
    | .monitoring (some true) => simp only [Requests.step] at hs; cases hs; exact ⟨by simp [Sound], by simp⟩
    | .monitoring (some false) => simp only [Requests.step] at hs; cases hs; exact ⟨by simp [Sound], by simp⟩
    | .deadline none | .monitoring none | .stopped | .crashed | .planning | .asking | .own | .skipping =>
      simp only [Requests.step] at hs; cases hs
  | peers d =>
    match ph, d with
    | .asking, some true => simp only [Requests.step] at hs; cases hs; exact ⟨by simp [Sound], by simp⟩
    | .asking, some false => simp only [Requests.step] at hs; cases hs; exact ⟨by simp [Sound], by simp⟩
    | .asking, none => simp only [Requests.step] at hs; cases hs; exact ⟨by simp [Sound], by simp⟩
    | .deadline _, _ | .monitoring _, _ | .stopped, _ | .crashed, _ | .planning, _ | .own, _ | .skipping, _ =>
      simp only [Requests.step] at hs; cases hs

theorem once_runs {evs : List Ev} : ∀ {j j' : Job} {os : List Out}, Sound j → runs j evs = some (os, j') →
    os.count (.woken true) + j'.flag.toNat ≤ j.flag.toNat + evs.count .request := by
  induction evs with
  | nil => intro j j' os _ hr; cases hr; simp
  | cons e rest ih =>
    intro j j' os hi hr
    unfold runs at hr
    split at hr
    · cases hr
    · rename_i o j1 hs
      split at hr
      · cases hr
      · rename_i os' j2 hr'
        cases hr
        obtain ⟨h0, h1⟩ := once_step hi hs
        have h2 := ih h0 hr'
        rw [List.count_append, List.count_cons]
        simp only [beq_iff_eq]
        omega

/-- **C84** ... and a job never runs outside its schedule more often than it was asked to. -/
theorem C84_no_more_than_asked (evs : List Ev) (os : List Out) (j : Job) (hr : runs .new evs = some (os, j)) :
    os.count (.woken true) ≤ evs.count .request := by
  have := once_runs (j := .new) (by simp [Sound, Job.new]) hr
  simp only [Job.new, Bool.toNat_false] at this
  omega

/-- The exception in C84 is real: the scheduled time comes before the job has noticed the request, and a peer has made the backup; the
request is forgotten. -/
theorem C84_coincidence : ∃ evs os j, runs .new evs = some (os, j) ∧ .request ∈ evs ∧ .attempt ∉ os ∧ j.flag = false ∧ Alive j :=
  ⟨[.start, .plan true, .request, .timer, .resume, .peers (some true), .done, .plan true], _, _, rfl, by simp, by simp, rfl,
    by simp [Alive]⟩

/-- A request while the job monitors a peer, which skips this run, and a restart of the job: the next run is immediate. -/
example : ∃ os j, runs ⟨.asking, false⟩ [.request, .peers (some true), .stop, .start, .plan true, .wake, .resume] = some (os, j) ∧
    os = [.skip, .woken true, .attempt] ∧
    NotDue ⟨.asking, true⟩ [.peers (some true), .stop, .start, .plan true, .wake, .resume] := by
  refine ⟨_, _, rfl, rfl, ?_⟩
  simp [NotDue, step]

/-- C84_not_forgotten, C84_skips_at_most_once: the request comes while the peers are asked; the backup is skipped once and then made. -/
example := C84_not_forgotten ⟨.asking, false⟩ [.peers (some true), .stop, .start, .plan true, .wake, .resume] _ _ (by decide)
  (by simp [NotDue, step]) rfl
example := C84_skips_at_most_once ⟨.asking, false⟩ [.peers (some true), .stop, .start, .plan true, .wake, .resume] _ _ (by decide)
  (by simp [NotDue, step]) rfl
example := C84_no_more_than_asked [.start, .plan true, .request, .request, .wake] _ _ rfl
example := C84_can_run ⟨.asking, true⟩ ⟨by decide, by decide⟩ rfl (by decide)

end Verif.Requests

namespace Verif.Api
open Verif Verif.Repo

/-- **C84** The answer to the request: 202, and the event of exactly that job is set; or 404, if there is no such job (anymore), and
nothing changes. -/
theorem C84_accepted (pd : String → Option Int) (s : Server) (q : Request) (name : String) (hq : q.route = .runJob name)
    (hauth : authenticate s.tokens q ≠ none) :
    (∃ b, s.jobs.get? name = some b ∧ (handle pd s q).1.code = 202 ∧
      (∀ n, (handle pd s q).2.jobs.get? n = if n = name then some { b with runNow := true } else s.jobs.get? n) ∧
      (handle pd s q).2.dead = s.dead) ∨
    (s.jobs.get? name = none ∧ (handle pd s q).1.code = 404 ∧ (handle pd s q).2 = s) := by
  unfold handle
  cases ha : authenticate s.tokens q with
  | none => exact absurd ha hauth
  | some c =>
    dsimp only
    rw [hq]
    simp only [dispatch, runJob]
    cases hj : s.jobs.get? name with
    | none => exact .inr ⟨rfl, rfl, rfl⟩
    | some b => exact .inl ⟨b, rfl, rfl, fun n => by simp only [Dict.get?_set], rfl⟩

end Verif.Api
