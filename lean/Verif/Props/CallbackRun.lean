import Verif.Model.CallbackRun
import Verif.Props.Logging
import Verif.Props.Passes
/-!
# What comes of the completion callback

C118.
-/
namespace Verif.CallbackRun
open Verif Verif.Daemon Verif.Daemon.Spec Verif.Logging

/-- The callback could be started and printed UTF-8, or there is none. -/
def Readable (configured : Bool) (r : Ran) : Prop :=
  configured = false ∨ ∃ code out err, r = .ended code out err ∧
    (String.fromUTF8? ⟨out.toArray⟩).isSome = true ∧ (String.fromUTF8? ⟨err.toArray⟩).isSome = true

theorem decodeOpt_ok (b : Bytes) (h : (String.fromUTF8? ⟨b.toArray⟩).isSome = true) : ∃ t, decodeOpt b = .ok t := by
  unfold decodeOpt
  split
  · exact ⟨_, rfl⟩
  · unfold decode
    cases hd : String.fromUTF8? ⟨b.toArray⟩ with
    | none => rw [hd] at h; cases h
    | some s => exact ⟨_, rfl⟩

theorem runCallback_ok (configured : Bool) (job : Text) (r : Ran) (h : Readable configured r) :
    (runCallback configured job r).isOk = true := by
  unfold runCallback
  rcases h with rfl | ⟨code, out, err, rfl, h1, h2⟩
  · rfl
  · split
    · obtain ⟨o, ho⟩ := decodeOpt_ok out h1
      obtain ⟨e, he⟩ := decodeOpt_ok err h2
      simp only [ho, he]
      rfl
    · rfl

/-- C118 (part): whatever the exit code of the callback and whatever text it prints, the run goes as it would go without a callback:
the same steps, and the same state of the job afterwards. -/
theorem C118_exit_code_ignored_partial (j : Retry) (p : Pass) (job : Text) (code : Int) (out err : Bytes)
    (ho : (String.fromUTF8? ⟨out.toArray⟩).isSome = true) (he : (String.fromUTF8? ⟨err.toArray⟩).isSome = true) :
    pass j (withCallback p true job (.ended code out err)) = pass j (withCallback p false job .notStarted) := by
  have : withCallback p true job (.ended code out err) = withCallback p false job .notStarted := by
    unfold withCallback
    rw [runCallback_ok true job _ (.inr ⟨code, out, err, rfl, ho, he⟩), runCallback_ok false job _ (.inl rfl)]
  rw [this]

/-- C118 (part): and what it has printed is logged, each line marked, together with the exit code. -/
theorem C118_logged_partial (tty : Bool) (n : Nat) (job : Text) (code : Int) (out err : Bytes) (o e : Text) (ev : Event)
    (ho : String.fromUTF8? ⟨out.toArray⟩ = some (String.ofList o)) (he : String.fromUTF8? ⟨err.toArray⟩ = some (String.ofList e))
    (hon : out ≠ []) (hen : err ≠ []) (h : runCallback true job (.ended code out err) = .ok (some ev))
    (c f : Text) (hr : render tty n ev = .ok (c, f)) (huo : Unescaped tty o) (hue : Unescaped tty e) :
    Kept "out>\t".toList o f ∧ Kept "err>\t".toList e f ∧ ("return_code".toList, (toString code).toList) ∈ ev.rest := by
  have h1 : decodeOpt out = .ok (some o) := by simp only [decodeOpt, if_neg hon, decode, ho, String.toList_ofList]
  have h2 : decodeOpt err = .ok (some e) := by simp only [decodeOpt, if_neg hen, decode, he, String.toList_ofList]
  simp only [runCallback, if_true, h1, h2] at h
  cases h
  have := C117_output_kept tty n _ c f hr
  exact ⟨this.1 o rfl huo, this.2 e rfl hue, .head _⟩

/-- C118 is false: if the callback cannot be started, or prints something that is no UTF-8, then the run, although its backup has
been made, expired, pushed and cleaned up, counts as failed. -/
theorem C118_false_counts_as_failed (j : Retry) (p : Pass) (t : Int) (tags : Finset String) (job : Text) (r : Ran)
    (hc : p.connected = true) (hp : p.planned = .ok (t, tags)) (hok : ∀ a, a ≠ .callback → p.failing a = false)
    (hr : r = .notStarted ∨ ∃ code out err, r = .ended code out err ∧ out ≠ [] ∧ String.fromUTF8? ⟨out.toArray⟩ = none) :
    ∃ j', (pass j (withCallback p true job r)).2 = some j' ∧ j'.errors = j.errors + 1 := by
  have hf : (withCallback p true job r).failing = fun a => decide (a = .callback) := by
    funext a
    have : (runCallback true job r).isOk = false := by
      rcases hr with rfl | ⟨code, out, err, rfl, hne, hn⟩
      · rfl
      · simp only [runCallback, if_true, decodeOpt, if_neg hne, decode, hn]; rfl
    show (if a = .callback then !(runCallback true job r).isOk else p.failing a) = _
    rw [this]
    by_cases ha : a = .callback
    · simp [ha]
    · simp [ha, hok a ha]
  have hc' : (withCallback p true job r).connected = true := hc
  have hp' : (withCallback p true job r).planned = .ok (t, tags) := hp
  have hb : (tryBlock (withCallback p true job r) (j.deadline (withCallback p true job r) t) tags).2 = false := by
    unfold tryBlock
    split
    · simp [hf, backupSteps, runSteps]
    · split
      · simp [hf, runSteps]
      · simp [hf, backupSteps, runSteps]
  refine ⟨j.after false, ?_, by simp [Retry.after]⟩
  unfold pass
  rw [if_neg (by simp [hc']), hp']
  simp only [hb]

/-- C118 is false: the job then makes the next backup two minutes later instead of at the planned time. -/
theorem C118_false_backup_repeated : ∃ p q : Pass, p.planned = .ok (5, {"daily"}) ∧
    q.planned = .ok (86400 * 1000000, {"daily"}) ∧ (∀ a, p.failing a = false) ∧
    runForever (some .init) [withCallback p true ['a'] (.ended 0 [0xff] []), q] =
      [[.connect, .waitUntil 5, .askPeers 5, .acquire true, .clean, .backup {"daily"}, .scan, .cleanAfter, .pull, .expire, .push, .gc,
          .callback],
        [.connect, .waitUntil (10 + 2 * minute), .askPeers (10 + 2 * minute), .acquire true, .clean, .backup {"daily"}, .scan, .cleanAfter,
          .pull, .expire, .push, .gc, .callback]] := by
  refine ⟨⟨true, .ok (5, {"daily"}), 6, false, false, true, fun _ => false⟩,
    ⟨true, .ok (86400 * 1000000, {"daily"}), 10, false, false, true, fun _ => false⟩, rfl, rfl, fun _ => rfl, ?_⟩
  decide +kernel

example := C118_exit_code_ignored_partial .init (exFail 0) ['a'] 1 [0x41] [] (by decide +kernel) (by decide +kernel)

example (c f : Text) (hr : render true 6 (finished ['a'] 1 (some ['A']) (some ['B'])) = .ok (c, f)) :=
  C118_logged_partial true 6 ['a'] 1 [0x41] [0x42] ['A'] ['B'] _ (by decide +kernel) (by decide +kernel) (by decide) (by decide)
    (by decide +kernel) c f hr (by intro _; decide) (by intro _; decide)

example := C118_false_counts_as_failed .init { exFail 0 with failing := fun _ => false } 5 {"daily"} ['a'] .notStarted rfl rfl
  (fun _ _ => rfl) (.inl rfl)

end Verif.CallbackRun
