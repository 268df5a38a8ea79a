import Verif.Model.Backend
import Verif.Props.Files
/-!
# C89: restoring with an external program
-/
namespace Verif.Backend
open Verif Verif.Chunked Verif.Spec Verif.Rbd Verif.Repo Verif.Files

/-- The external program does its job: if it exits with 0, the target holds the image. -/
def Right (x : Extract) (w : World) (uuid : String) (c : Bytes) : Prop :=
  ∀ t, (x.run w uuid t).1 = 0 → (x.run w uuid t).2 = some c

/-- The choice: the program is used on request, and automatically exactly if the image is a multiple of the chunk size and the
program answers with its name. -/
theorem C89_choice (env : Env) (x : Extract) (w : World) (r : Rev) (c : Bytes) (hw : WOK env w) (hd : OnDisk env w r.uuid c)
    (t : Target) :
    (restoreVia env x w r .rust t).extracted = true ∧ (restoreVia env x w r .python t).extracted = false ∧
    ((restoreVia env x w r .auto t).extracted = true ↔
      env.cs ∣ c.length ∧ ∃ rest, x.version = .ok ("backy-extract" ++ rest)) := by
  obtain ⟨s, h1, h2⟩ := Rd.open hw hd
  have hpy : (viaPython env w r t).extracted = false := by cases t <;> rfl
  simp only [restoreVia, h1]
  refine ⟨by simp [choose, viaExtract], by simp [choose, hpy], ?_⟩
  have hs : supported env x s.f.size = true ↔ env.cs ∣ c.length ∧ ∃ rest, x.version = .ok ("backy-extract" ++ rest) := by
    rw [h2.size]
    simp only [supported, Nat.dvd_iff_mod_eq_zero]
    by_cases hm : c.length % env.cs = 0
    · simp only [hm, ne_eq, not_true_eq_false, if_false, true_and]
      cases hv : x.version with
      | error e => simp
      | ok v =>
        simp only [hasPrefix, List.isPrefixOf_iff_prefix, Except.ok.injEq]
        constructor
        · intro h
          split at h
          · next hp =>
            obtain ⟨l, hl⟩ := hp
            refine ⟨String.ofList l, ?_⟩
            apply String.toList_inj.mp
            rw [← hl, String.toList_append]; simp
          · cases h
        · rintro ⟨rest, rfl⟩
          rw [String.toList_append, if_pos (List.prefix_append _ _)]
    · simp [hm]
  rw [← hs]
  cases hsup : supported env x s.f.size <;> simp [choose, hsup, viaExtract, hpy]

/-- With a program that does its job and an intact revision, a restore that reports no error has produced exactly the image,
whatever was chosen; without the program it always succeeds. -/
theorem C89_exact (env : Env) (x : Extract) (w : World) (r : Rev) (c : Bytes) (hw : WOK env w) (hd : OnDisk env w r.uuid c)
    (hcoll : CollFree env.H w.log) (hx : Right x w r.uuid c) (b : Backend) (t : Target) :
    ((restoreVia env x w r b t).res = .ok () → (restoreVia env x w r b t).data = some c) ∧
    ((restoreVia env x w r b t).extracted = false →
      (restoreVia env x w r b t).res = .ok () ∧ (restoreVia env x w r b t).data = some c) := by
  obtain ⟨s, h1, h2⟩ := Rd.open hw hd
  have hpy : (viaPython env w r t).res = .ok () ∧ (viaPython env w r t).data = some c := by
    cases t with
    | stdout => simp [viaPython, C20_restore_stdout env w r c hw hd hcoll]
    | file old => simp [viaPython, C20_restore_file env w r c hw hd hcoll]
  simp only [restoreVia, h1]
  split
  · exact ⟨fun _ => hpy.2, fun _ => hpy⟩
  · refine ⟨fun h => ?_, fun h => nomatch h⟩
    simp only [viaExtract] at h ⊢
    split at h
    · cases h
    · next hz => exact hx t (by simpa using hz)

/-- A program that exits with a code other than 0 makes the restore fail: the other implementation is not tried, and what the
program wrote is left. -/
theorem C89_failure (env : Env) (x : Extract) (w : World) (r : Rev) (b : Backend) (t : Target)
    (ran : (restoreVia env x w r b t).extracted = true) :
    (restoreVia env x w r b t).data = (x.run w r.uuid t).2 ∧
    ((restoreVia env x w r b t).res = .ok () ↔ (x.run w r.uuid t).1 = 0) := by
  have hpy : (viaPython env w r t).extracted = false := by cases t <;> rfl
  simp only [restoreVia] at ran ⊢
  split at ran
  · cases ran
  · split at ran
    · rw [hpy] at ran; cases ran
    · next hne =>
      rw [if_neg hne]
      refine ⟨rfl, ?_⟩
      simp only [viaExtract]
      split <;> simp_all

/-- A revision whose mapping file cannot be read is not restored at all, and the program is not started. -/
theorem C89_unreadable (env : Env) (x : Extract) (w : World) (r : Rev) (b : Backend) (t : Target) {e : PyErr}
    (h : File.open w r.uuid rb = .error e) :
    restoreVia env x w r b t = ⟨.error e, t.before, false⟩ := by
  simp [restoreVia, h]

/-- The choice of the user arrives in the other process. -/
theorem C89_passed_on (b : Backend) : Backend.parse b.value = .ok b := by cases b <;> decide

/-- `storedWorld` of `Proofs/Files` with a working program: the image has 6 bytes, not a multiple of 4. -/
def exExtract : Extract := ⟨.ok "backy-extract 1.1.0", fun _ _ _ => (0, some [1, 2, 3, 4, 5, 6])⟩

example : Right exExtract storedWorld "b" [1, 2, 3, 4, 5, 6] ∧ WOK Test.env storedWorld ∧ OnDisk Test.env storedWorld "b" [1, 2, 3, 4, 5, 6] ∧
    restoreVia Test.env exExtract storedWorld ⟨"b", 5, [("duration", 1)], .trusted, ∅, ∅, ""⟩ .auto (.file none) =
      ⟨.ok (), some [1, 2, 3, 4, 5, 6], false⟩ ∧
    (restoreVia Test.env ⟨.ok "", fun _ _ _ => (3, none)⟩ storedWorld ⟨"b", 5, [("duration", 1)], .trusted, ∅, ∅, ""⟩ .rust (.file none)) =
      ⟨.error .runtime, none, true⟩ := by
  refine ⟨fun _ _ => rfl, storedWorld_ok, storedWorld_b, ?_, ?_⟩ <;> decide +kernel

/-- C89_choice, C89_exact, C89_failure, C89_unreadable -/
example := C89_choice Test.env exExtract storedWorld ⟨"b", 5, [("duration", 1)], .trusted, ∅, ∅, ""⟩ _ storedWorld_ok storedWorld_b (.file none)
example := C89_exact Test.env exExtract storedWorld ⟨"b", 5, [("duration", 1)], .trusted, ∅, ∅, ""⟩ _ storedWorld_ok storedWorld_b
  (Test.collFree _) (fun _ _ => rfl) .auto (.file none)
example := C89_failure Test.env ⟨.ok "", fun _ _ _ => (3, none)⟩ storedWorld ⟨"b", 5, [("duration", 1)], .trusted, ∅, ∅, ""⟩ .rust (.file none)
  (by decide +kernel)
example := C89_unreadable Test.env exExtract storedWorld ⟨"zz", 5, [("duration", 1)], .trusted, ∅, ∅, ""⟩ .auto (.file none) (e := .fileNotFound)
  rfl

end Verif.Backend
