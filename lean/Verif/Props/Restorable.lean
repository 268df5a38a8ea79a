import Verif.Props.Foreground
import Verif.Props.Killed
import Mathlib.Tactic.IntervalCases
/-!
# Properties C107 and C108: what `backy restore` restores
-/
set_option linter.dupNamespace false
namespace Verif.Repo
open Verif Verif.Repo.Spec

theorem pyInt_call {s : String} (h : IsCall s) : pyInt s.toList = none := by
  obtain ⟨a, _, _, h | h⟩ := h <;> rw [h] <;> rfl

/-- **C36** `first(…)` and `last(…)` select the first revision of what the expression means. -/
theorem C36_call (c : Ctx) (s : String) (ht : Trimmed s.toList) (h : IsCall s)
    (hid : ∀ r ∈ c.history, r.uuid ≠ s) (hne : c.history ≠ []) (r : Rev) (l : List Rev) (hl : findRevisions c s = .ok (r :: l)) :
    find c s = .ok r := by
  have hs : s ≠ "" := by
    rintro rfl
    obtain ⟨a, _, _, h | h⟩ := h <;> simp at h
  have hk : s ≠ "last" ∧ s ≠ "latest" ∧ s ≠ "first" := by
    have hc := (isFirstLastCall_iff s).2 h
    refine ⟨?_, ?_, ?_⟩ <;> rintro rfl <;> revert hc <;> decide +kernel
  rw [find_trimmed ht hs hne]
  have h1 : findByNumber c.history s = .error .value := by unfold findByNumber; rw [pyInt_call h]
  have h2 : findByUuid c.history s = .error .index := by
    unfold findByUuid
    rw [List.find?_eq_none.2 (by simpa using hid)]
  have h3 : findByTag c.history s = .error .value := by
    unfold findByTag
    rw [if_neg (by simp [hk.1, hk.2.1]), if_neg hk.2.2]
  have h4 : findByFunction c s = .ok r := by
    unfold findByFunction
    rw [(isFirstLastCall_iff s).2 h, hl]
    rfl
  rw [h1, h2, h3, h4]
  rfl

/-- The text that selects the newest complete revision of this server. -/
def newestComplete : String := "last(clean&local)"

/-- `last(clean&local)`. -/
def newestExpr : Expr .disj :=
  .all (.one (.single (.call .last (.all (.and (.single (.atom "clean")) (.one (.single (.atom "local"))))))))

theorem newestExpr_text : String.ofList (newestExpr.text []) = newestComplete := by decide +kernel

theorem eraseDups_nodup {α : Type} [BEq α] [LawfulBEq α] : ∀ l : List α, l.Nodup → l.eraseDups = l
  | [], _ => rfl
  | a :: l, h => by
    rw [List.nodup_cons] at h
    rw [List.eraseDups_cons, List.filter_eq_self.2 (by intro x hx; simp only [Bool.not_eq_true', beq_eq_false_iff_ne]; rintro rfl; exact h.1 hx), eraseDups_nodup l h.2]

theorem findRevisions_newest (c : Ctx) (hH : c.history.Nodup) (r : Rev)
    (hr : (c.history.filter (fun r => r.clean && r.isLocal)).getLast? = some r) :
    findRevisions c newestComplete = .ok [r] := by
  have h := C37_expressions c newestExpr
    ⟨plainWord_of (by decide +kernel) (by decide), plainWord_of (by decide +kernel) (by decide)⟩ [] (by intro c hc; simp at hc)
  rw [newestExpr_text] at h
  have h1 : (semOf c).select "clean" = some (c.history.filter Selector.clean.selects) := C37_selectors c .clean
  have h2 : (semOf c).select "local" = some (c.history.filter Selector.local_.selects) := C37_selectors c .local_
  have h3 : inter (c.history.filter Selector.clean.selects) (c.history.filter Selector.local_.selects) =
      c.history.filter (fun r => r.clean && r.isLocal) := by
    unfold inter
    rw [eraseDups_nodup _ ((hH.filter _).filter _), List.filter_filter]
    apply List.filter_congr
    intro x hx
    rw [Bool.eq_iff_iff]
    have hc : x.stats.any (fun e => decide (e.1 = "duration")) = x.clean := by
      rw [Bool.eq_iff_iff]
      simp only [Rev.clean, Dict.has, ← Dict.mem_keys_iff, Dict.keys]
      simp
    simp only [Bool.and_eq_true, decide_eq_true_eq, List.mem_filter, Selector.selects, Rev.isLocal, hc, hx, true_and]
    exact and_comm
  have : (newestExpr.meaning (semOf c)).revs = some [r] := by
    simp only [newestExpr, Expr.meaning, h1, h2, Option.bind_some, Option.map_some, h3, fnMeaning, hr]
  rw [this] at h
  cases hf : findRevisions c newestComplete with
  | error e => rw [hf] at h; cases h
  | ok l => rw [hf] at h; cases h; rfl

/-- `last(clean&local)` is the last complete local revision of the history. -/
theorem find_newestComplete (c : Ctx) (hH : c.history.Nodup) (hid : ∀ r ∈ c.history, r.uuid ≠ newestComplete)
    (r : Rev) (hr : (c.history.filter (fun r => r.clean && r.isLocal)).getLast? = some r) : find c newestComplete = .ok r :=
  C36_call c newestComplete ⟨by decide +kernel, by decide +kernel⟩ ((isFirstLastCall_iff _).1 (by decide +kernel)) hid
    (by intro he; rw [he] at hr; cases hr) r [] (findRevisions_newest c hH r hr)

end Verif.Repo

namespace Verif.Commands
open Verif Verif.Chunked Verif.Spec Verif.Rbd Verif.Repo Verif.Files Verif.Backup Verif.Cli Verif.Repo.Spec Verif.Diff

/-- Restoring a revision that is complete, after any history. -/
theorem restores_complete (env : Env) (s0 s : Sys) (h0 : Initial s0) (hs : Steps env s0 s) (hcoll : CollFree env.H s.src.w.log)
    (x : Outside) (sch : Schedule) (hx : x.sch = some sch) (dry : Bool) (spec : String) (r : Rev)
    (hr : find ⟨s.src.repo.scan.history, x.pd⟩ spec = .ok r) (hl : r.server = "") (hc : r.clean = true) :
    ∃ c, s.ceph.taken.get? r.uuid = some c ∧ (main env x dry (.restore spec) s).1 = 0 ∧ (restoreCmd env x spec s.connect).2 = some c := by
  have hg := (Good.initial (env := env) h0).steps hcoll hs (fun _ h => h)
  have hm : r ∈ s.src.repo.scan.history := find_mem (c := ⟨s.src.repo.scan.history, x.pd⟩) (nodup_of_map_uuid (Repo.scan_nodup s.src.repo)) hr
  have hd := (Repo.scan_mem hg.disk.named r).1 hm
  obtain ⟨c, h1, h2⟩ := hg.disk.good r.uuid r hd hl hc
  obtain ⟨h3, h4⟩ := (C67_restore env x sch hx dry spec s).2 r c hr hg.disk.wok h2 hcoll
  exact ⟨c, h1, h3, h4⟩

/-- **C107** (partial) After any history: if the selected revision is a complete one of this server, `backy restore` exits with 0 and what it has
written is exactly the snapshot that revision was taken of. -/
theorem C107_complete_partial (env : Env) (s0 s : Sys) (h0 : Initial s0) (hs : Steps env s0 s) (hcoll : CollFree env.H s.src.w.log)
    (x : Outside) (sch : Schedule) (hx : x.sch = some sch) (dry : Bool) (spec : String) (r : Rev)
    (hr : find ⟨s.src.repo.scan.history, x.pd⟩ spec = .ok r) (hl : r.server = "") (hc : r.clean = true) :
    ∃ c, s.ceph.taken.get? r.uuid = some c ∧ (main env x dry (.restore spec) s).1 = 0 ∧ (restoreCmd env x spec s.connect).2 = some c :=
  restores_complete env s0 s h0 hs hcoll x sch hx dry spec r hr hl hc

/-- **C108** After any history: if there is a complete revision of this server, `backy restore -r "last(clean&local)"` exits with 0 and writes
exactly the snapshot of the newest one. -/
theorem C108_newest_complete (env : Env) (s0 s : Sys) (h0 : Initial s0) (hs : Steps env s0 s) (hcoll : CollFree env.H s.src.w.log)
    (x : Outside) (sch : Schedule) (hx : x.sch = some sch) (dry : Bool)
    (hid : ∀ u r, onDisk s.src.repo.files u = some r → u ≠ "last(clean&local)")
    (hex : ∃ u r, onDisk s.src.repo.files u = some r ∧ r.server = "" ∧ r.clean = true) :
    ∃ u r c, onDisk s.src.repo.files u = some r ∧ r.server = "" ∧ r.clean = true ∧
      (∀ v q, onDisk s.src.repo.files v = some q → q.server = "" → q.clean = true → q.ts ≤ r.ts) ∧
      s.ceph.taken.get? u = some c ∧
      (main env x dry (.restore "last(clean&local)") s).1 = 0 ∧
      (restoreCmd env x "last(clean&local)" s.connect).2 = some c := by
  have hg := (Good.initial (env := env) h0).steps hcoll hs (fun _ h => h)
  have hn := hg.disk.named
  have hmem := fun r => Repo.scan_mem (s := s.src.repo) hn r
  have huu : ∀ v q, onDisk s.src.repo.files v = some q → q.uuid = v := fun v q h => onDisk_uuid hn h
  obtain ⟨u0, r0, h1, h2, h3⟩ := hex
  have hin : ∀ v q, onDisk s.src.repo.files v = some q → q.server = "" → q.clean = true →
      q ∈ s.src.repo.scan.history.filter (fun r => r.clean && r.isLocal) := by
    intro v q a1 a2 a3
    rw [List.mem_filter]
    refine ⟨(hmem q).2 (by rw [huu v q a1]; exact a1), by simp [a3, Rev.isLocal, a2]⟩
  have hne : s.src.repo.scan.history.filter (fun r => r.clean && r.isLocal) ≠ [] := List.ne_nil_of_mem (hin u0 r0 h1 h2 h3)
  let r := (s.src.repo.scan.history.filter (fun r => r.clean && r.isLocal)).getLast hne
  have hrl : (s.src.repo.scan.history.filter (fun r => r.clean && r.isLocal)).getLast? = some r := List.getLast?_eq_some_getLast hne
  have hrm : r ∈ s.src.repo.scan.history.filter (fun r => r.clean && r.isLocal) := List.getLast_mem hne
  rw [List.mem_filter] at hrm
  simp only [Bool.and_eq_true, Rev.isLocal, decide_eq_true_eq] at hrm
  have hrd := (hmem r).1 hrm.1
  have hf : find ⟨s.src.repo.scan.history, x.pd⟩ newestComplete = .ok r :=
    find_newestComplete ⟨s.src.repo.scan.history, x.pd⟩ (nodup_of_map_uuid (Repo.scan_nodup s.src.repo))
      (fun q hq => hid q.uuid q ((hmem q).1 hq)) r hrl
  obtain ⟨c, c1, c2, c3⟩ := restores_complete env s0 s h0 hs hcoll x sch hx dry newestComplete r hf hrm.2.2 hrm.2.1
  refine ⟨r.uuid, r, c, hrd, hrm.2.2, hrm.2.1, ?_, c1, c2, c3⟩
  intro v q a1 a2 a3
  have hq := hin v q a1 a2 a3
  have hs := (Repo.scan_sorted s.src.repo).filter (fun r => r.clean && r.isLocal)
  rw [← List.dropLast_append_getLast hne] at hq hs
  rw [List.mem_append, List.mem_singleton] at hq
  rcases hq with hq | rfl
  · exact (List.pairwise_append.1 hs).2.2 q hq r (by simp [r])
  · exact Int.le_refl _

/-! ### A history in which `backy restore` writes a mixture -/

/-- A diff in two records. -/
def exTwo : Diff := ⟨[.size 8], [.data 0 [5, 5, 5, 5], .data 4 [2, 2, 2, 2]]⟩

/-- The image has changed after the first backup. -/
def exBefore : Sys := { exFirst with ceph := { exFirst.ceph with image := [5, 5, 5, 5, 2, 2, 2, 2] } }

/-- `rbd export-diff` ends in the middle of a record. -/
def exCut : Rbd := { idealRbd [5, 5, 5, 5, 2, 2, 2, 2] [1] with diffOut := fun _ => exTwo.encode.take 40 }

/-- After the second backup, which failed. -/
def exMixed : Sys := (runBackup Test.env false exCut "b" 20 {"daily"} exBefore.connect).2

theorem exTwo_valid : exTwo.Valid := by
  refine ⟨?_, ?_⟩
  · intro m hm
    simp only [exTwo, List.mem_singleton] at hm
    subst hm; exact (by decide : (8 : Nat) < 2 ^ 64)
  · intro m hm
    simp only [exTwo, List.mem_cons, List.not_mem_nil, or_false] at hm
    rcases hm with rfl | rfl <;> exact ⟨by decide, by decide⟩

theorem exTwo_describes (old f t : Bytes) : exTwo.Describes f t old [5, 5, 5, 5, 2, 2, 2, 2] := by
  refine ⟨?_, ?_, by simp [exTwo], ?_, ?_, ?_⟩
  · intro b hb; simp [exTwo] at hb
  · intro b hb; simp [exTwo] at hb
  · intro n hn; simpa [exTwo] using hn
  · intro r hr
    simp only [exTwo, List.mem_cons, List.not_mem_nil, or_false] at hr
    rcases hr with rfl | rfl
    · exact ⟨by decide, by intro i hi; have : i < 4 := hi; interval_cases i <;> rfl⟩
    · exact ⟨by decide, by intro i hi; have : i < 4 := hi; interval_cases i <;> rfl⟩
  · intro p hp _
    have hp : p < 8 := hp
    by_cases h : p < 4
    · exact ⟨.data 0 [5, 5, 5, 5], by simp [exTwo], by simp [DataRec.Covers]; omega⟩
    · exact ⟨.data 4 [2, 2, 2, 2], by simp [exTwo], by simp [DataRec.Covers]; omega⟩

theorem exCut_faithful : Faithful exCut exBefore.ceph.snaps "b" exBefore.ceph.image :=
  ⟨rfl, fun _ c _ => ⟨exTwo, 40, exTwo_valid, exTwo_describes c _ _, rfl⟩⟩

theorem exMixed_steps : Steps Test.env exNew exMixed :=
  .cons (.cons (.cons (.nil _) (.backup _ _ _ _ _ _ exFirst_fresh exFirst_works.faithful)) (.guest _ _))
    (.backup _ _ _ _ _ _ ⟨by decide +kernel, by decide +kernel, by decide +kernel⟩ exCut_faithful)

/-- **C107** is false of the code: after a backup that failed because `rbd export-diff` broke off, `backy restore` without `-r` exits with 0, and
what it has written was never the content of the image: it is neither any snapshot that was backed up nor the image. -/
theorem C107_false_mixture : ∃ (s : Sys) (x : Outside) (c : Bytes), Steps Test.env exNew s ∧ CollFree Test.env.H s.src.w.log ∧
    (∃ r, onDisk s.src.repo.files "a" = some r ∧ r.server = "" ∧ r.clean = true) ∧
    (main Test.env x false (.restore "latest") s).1 = 0 ∧ (restoreCmd Test.env x "latest" s.connect).2 = some c ∧
    (∀ u, s.ceph.taken.get? u ≠ some c) ∧ s.ceph.image ≠ c := by
  refine ⟨exMixed, exOutside, [5, 5, 0, 0, 1, 1, 1, 1], exMixed_steps, Test.collFree _,
    ⟨finished (idealRbd [] []) (newRev "a" 10 {"daily"}), by decide +kernel⟩, by decide +kernel, by decide +kernel, ?_, by decide +kernel⟩
  intro u hu
  have : ([5, 5, 0, 0, 1, 1, 1, 1] : Bytes) ∈ exMixed.ceph.taken.map Prod.snd := List.mem_map_of_mem (f := Prod.snd) (Dict.mem_of_get? hu)
  revert this
  decide +kernel

/-- Test: in the same history, asking for the newest complete revision gives the first snapshot. -/
example : ∃ u c, exMixed.ceph.taken.get? u = some c ∧ (main Test.env exOutside false (.restore "last(clean&local)") exMixed).1 = 0 ∧
    (restoreCmd Test.env exOutside "last(clean&local)" exMixed.connect).2 = some c := by
  obtain ⟨u, r, c, _, _, _, _, h1, h2, h3⟩ := C108_newest_complete Test.env exNew exMixed exNew_initial exMixed_steps (Test.collFree _)
    exOutside exSchedule rfl false
    (by
      intro u r hr he
      subst he
      revert hr
      have : onDisk exMixed.src.repo.files "last(clean&local)" = none := by decide +kernel
      rw [this]
      exact fun h => by cases h)
    ⟨"a", finished (idealRbd [] []) (newRev "a" 10 {"daily"}), by decide +kernel⟩
  exact ⟨u, c, h1, h2, h3⟩

/-- Test: `C107_complete_partial` applies to the first revision. -/
example : ∃ c, exMixed.ceph.taken.get? "a" = some c ∧ (main Test.env exOutside false (.restore "first") exMixed).1 = 0 ∧
    (restoreCmd Test.env exOutside "first" exMixed.connect).2 = some c :=
  C107_complete_partial Test.env exNew exMixed exNew_initial exMixed_steps (Test.collFree _) exOutside exSchedule rfl false "first"
    (finished (idealRbd [] []) (newRev "a" 10 {"daily"})) (by decide +kernel) (by decide +kernel) (by decide +kernel)

end Verif.Commands
