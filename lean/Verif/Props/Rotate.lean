import Verif.Model.Rotate
import Mathlib.Tactic.ByContra
/-!
# C128: log rotation
-/
namespace Verif.Rotate
open Verif

/-- What a process has written, in order. -/
def written (i : Nat) : List Ev → List String
  | [] => []
  | .entry j text :: es => if j = i then text :: written i es else written i es
  | _ :: es => written i es

/-- Files are renamed to names that are not in use. -/
def Careful : Logs → List Ev → Prop
  | _, [] => True
  | s, e :: es => (∀ a b, e = .rename a b → a ≠ b → s.names.get? b = none) ∧ Careful (step s e) es

theorem steps_append (s : Logs) (a b : List Ev) : steps s (a ++ b) = steps (steps s a) b := List.foldl_append ..

/-! ### What does not change -/

/-- The files that processes have opened stay the same. -/
theorem opened_step {s : Logs} {i k : Nat} (h : s.opened[i]? = some k) (e : Ev) : (step s e).opened[i]? = some k := by
  cases e with
  | launch name =>
    have hi := (List.getElem?_eq_some_iff.1 h).1
    show (s.launch name).opened[i]? = _
    unfold Logs.launch
    split <;> (dsimp only; rw [List.getElem?_append_left hi]; exact h)
  | entry j text =>
    show (s.add j text).opened[i]? = _
    unfold Logs.add
    split <;> exact h
  | rename a b =>
    show (s.rename a b).opened[i]? = _
    unfold Logs.rename
    split <;> exact h

theorem opened_steps {i k : Nat} : ∀ (es : List Ev) {s : Logs}, s.opened[i]? = some k → (steps s es).opened[i]? = some k
  | [], _, h => h
  | e :: es, _, h => opened_steps es (opened_step h e)

/-- What is in a file stays there, and what its processes write is added. -/
theorem data_step {s : Logs} {i k : Nat} (h : s.opened[i]? = some k) (e : Ev) {l : List String} (hl : l.Sublist (s.data k)) :
    (l ++ written i [e]).Sublist ((step s e).data k) := by
  have hn : ∀ s' : Logs, s'.data = s.data → (l ++ []).Sublist (s'.data k) := fun s' hs => by rw [hs, List.append_nil]; exact hl
  cases e with
  | launch name =>
    refine hn (s.launch name) ?_
    unfold Logs.launch
    split <;> rfl
  | rename a b =>
    refine hn (s.rename a b) ?_
    unfold Logs.rename
    split <;> rfl
  | entry j text =>
    show (l ++ written i [.entry j text]).Sublist ((s.add j text).data k)
    by_cases hj : j = i
    · subst hj
      unfold Logs.add
      rw [h]
      simp only [written, if_true]
      exact hl.append (List.Sublist.refl _)
    · have hw : written i [.entry j text] = [] := by simp [written, hj]
      rw [hw, List.append_nil]
      unfold Logs.add
      split
      · exact hl
      · dsimp only
        split
        · exact hl.trans (List.sublist_append_left ..)
        · exact hl

theorem written_cons (i : Nat) (e : Ev) (es : List Ev) : written i (e :: es) = written i [e] ++ written i es := by
  cases e with
  | entry j text =>
    show (if j = i then text :: written i es else written i es) = (if j = i then text :: written i [] else written i []) ++ written i es
    split <;> rfl
  | launch name => rfl
  | rename a b => rfl

theorem data_steps {i k : Nat} : ∀ (es : List Ev) {s : Logs} {l : List String}, s.opened[i]? = some k → l.Sublist (s.data k) →
    (l ++ written i es).Sublist ((steps s es).data k)
  | [], _, l, _, hl => by simpa [written, steps] using hl
  | e :: es, s, l, h, hl => by
    rw [written_cons, ← List.append_assoc]
    exact data_steps es (opened_step h e) (data_step h e hl)

/-! ### Every opened file has a name -/

/-- Every file that a process has opened has a name. -/
def Reachable (s : Logs) : Prop := ∀ (i k : Nat), s.opened[i]? = some k → ∃ name, s.names.get? name = some k

theorem Reachable.step {s : Logs} (h : Reachable s) (e : Ev) (hc : ∀ a b, e = .rename a b → a ≠ b → s.names.get? b = none) : Reachable (Rotate.step s e) := by
  cases e with
  | launch name =>
    show Reachable (s.launch name)
    unfold Logs.launch
    split
    · rename_i k hk
      intro i k' hi
      by_cases hlt : i < s.opened.length
      · exact h i k' (by dsimp only at hi; rwa [List.getElem?_append_left hlt] at hi)
      · dsimp only at hi
        rw [List.getElem?_append_right (by omega)] at hi
        obtain ⟨_, rfl⟩ := List.getElem?_eq_some_iff.1 hi
        exact ⟨name, by simpa using hk⟩
    · rename_i hk
      intro i k' hi
      by_cases hlt : i < s.opened.length
      · obtain ⟨m, hm⟩ := h i k' (by dsimp only at hi; rwa [List.getElem?_append_left hlt] at hi)
        refine ⟨m, ?_⟩
        dsimp only
        rw [Dict.get?_set_ne _ _ (fun he => by rw [he, hk] at hm; cases hm)]
        exact hm
      · dsimp only at hi
        rw [List.getElem?_append_right (by omega)] at hi
        obtain ⟨_, rfl⟩ := List.getElem?_eq_some_iff.1 hi
        exact ⟨name, by simp⟩
  | entry j text =>
    show Reachable (s.add j text)
    unfold Logs.add
    split <;> exact h
  | rename a b =>
    show Reachable (s.rename a b)
    unfold Logs.rename
    split
    · exact h
    · rename_i k hk
      intro i k' hi
      obtain ⟨m, hm⟩ := h i k' hi
      by_cases hma : m = a
      · subst hma
        rw [hk] at hm
        cases hm
        exact ⟨b, by simp⟩
      · refine ⟨m, ?_⟩
        dsimp only
        rw [Dict.get?_set]
        split
        · rename_i hmb
          by_cases hab : a = b
          · exact absurd (hmb.trans hab.symm) hma
          · rw [hmb, hc a b rfl hab] at hm
            cases hm
        · rw [Dict.get?_erase_ne _ hma]
          exact hm

theorem Reachable.steps : ∀ (es : List Ev) {s : Logs}, Reachable s → Careful s es → Reachable (Rotate.steps s es)
  | [], _, h, _ => h
  | e :: es, _, h, hc => Reachable.steps es (h.step e hc.1) hc.2

/-- The number of processes started. -/
def launches : List Ev → Nat
  | [] => 0
  | .launch _ :: es => launches es + 1
  | _ :: es => launches es

theorem opened_length : ∀ (es : List Ev) (s : Logs), (steps s es).opened.length = s.opened.length + launches es
  | [], _ => rfl
  | e :: es, s => by
    show (steps (step s e) es).opened.length = _
    rw [opened_length es]
    cases e with
    | launch name =>
      show (s.launch name).opened.length + _ = _
      unfold Logs.launch
      split <;> simp [launches] <;> omega
    | entry j text =>
      show (s.add j text).opened.length + _ = _
      unfold Logs.add
      split <;> rfl
    | rename a b =>
      show (s.rename a b).opened.length + _ = _
      unfold Logs.rename
      split <;> rfl

/-- **C128 (partial)** Renaming log files loses nothing: after any history in which files are renamed to names that are not in use, all that a process has written
since it was started is in one file that has a name, in order. -/
theorem C128_kept_partial (es1 es2 : List Ev) (name : String) (hc : Careful .init (es1 ++ .launch name :: es2)) :
    ∃ file k, (steps .init (es1 ++ .launch name :: es2)).names.get? file = some k ∧
      (written (launches es1) es2).Sublist ((steps .init (es1 ++ .launch name :: es2)).data k) := by
  have hr := Reachable.steps (es1 ++ .launch name :: es2) (s := .init) (fun i k hi => by cases hi) hc
  have hlen : (steps .init es1).opened.length = launches es1 := by rw [opened_length]; show 0 + _ = _; omega
  have ho : ∃ k, (step (steps .init es1) (.launch name)).opened[launches es1]? = some k := by
    show ∃ k, ((steps .init es1).launch name).opened[launches es1]? = some k
    unfold Logs.launch
    split
    · exact ⟨_, by dsimp only; rw [List.getElem?_append_right (by omega), hlen, Nat.sub_self]; rfl⟩
    · exact ⟨_, by dsimp only; rw [List.getElem?_append_right (by omega), hlen, Nat.sub_self]; rfl⟩
  obtain ⟨k, hk⟩ := ho
  rw [steps_append] at hr ⊢
  obtain ⟨file, hf⟩ := hr _ k (opened_steps es2 hk)
  refine ⟨file, k, hf, ?_⟩
  exact data_steps es2 (l := []) hk (List.nil_sublist _)

/-- The name is not touched by a renaming. -/
def Untouched (name : String) (es : List Ev) : Prop := ∀ a b, .rename a b ∈ es → a ≠ name ∧ b ≠ name

theorem names_step {s : Logs} {name : String} {k : Nat} (h : s.names.get? name = some k) (e : Ev) (hu : ∀ a b, e = .rename a b → a ≠ name ∧ b ≠ name) :
    (step s e).names.get? name = some k := by
  cases e with
  | launch m =>
    show (s.launch m).names.get? name = _
    unfold Logs.launch
    split
    · exact h
    · rename_i hm
      dsimp only
      rw [Dict.get?_set_ne _ _ (fun he => by rw [← he, h] at hm; cases hm)]
      exact h
  | entry j text =>
    show (s.add j text).names.get? name = _
    unfold Logs.add
    split <;> exact h
  | rename a b =>
    obtain ⟨h1, h2⟩ := hu a b rfl
    show (s.rename a b).names.get? name = _
    unfold Logs.rename
    split
    · exact h
    · dsimp only
      rw [Dict.get?_set_ne _ _ (Ne.symm h2), Dict.get?_erase_ne _ (Ne.symm h1)]
      exact h

theorem names_steps {name : String} {k : Nat} : ∀ (es : List Ev) {s : Logs}, s.names.get? name = some k → Untouched name es →
    (steps s es).names.get? name = some k
  | [], _, h, _ => h
  | e :: es, _, h, hu =>
    names_steps es (names_step h e (fun a b he => hu a b (he ▸ List.mem_cons_self ..))) (fun a b hm => hu a b (List.mem_cons_of_mem _ hm))

/-- **C128 (partial)** A process writes to the file of the configured name until that file is renamed: whatever was renamed before it was started. -/
theorem C128_new_partial (es1 es2 : List Ev) (name : String) (hu : Untouched name es2) :
    ∃ k, (steps .init (es1 ++ .launch name :: es2)).names.get? name = some k ∧
      (written (launches es1) es2).Sublist ((steps .init (es1 ++ .launch name :: es2)).data k) := by
  have hlen : (steps .init es1).opened.length = launches es1 := by rw [opened_length]; show 0 + _ = _; omega
  have ho : ∃ k, (step (steps .init es1) (.launch name)).opened[launches es1]? = some k ∧
      (step (steps .init es1) (.launch name)).names.get? name = some k := by
    show ∃ k, ((steps .init es1).launch name).opened[launches es1]? = some k ∧ ((steps .init es1).launch name).names.get? name = some k
    unfold Logs.launch
    split
    · rename_i k hk
      exact ⟨_, by dsimp only; rw [List.getElem?_append_right (by omega), hlen, Nat.sub_self]; rfl, hk⟩
    · exact ⟨_, by dsimp only; rw [List.getElem?_append_right (by omega), hlen, Nat.sub_self]; rfl, by simp⟩
  obtain ⟨k, hk, hn⟩ := ho
  rw [steps_append]
  refine ⟨k, names_steps es2 hn hu, ?_⟩
  exact data_steps es2 (l := []) hk (List.nil_sublist _)

/-! ### A process that was started before -/

/-- After the file of `name` was renamed when there were `n` processes and the next file to be created had number `m`: a file with this name is a new one, which only
new processes have opened, and what is in it is from them. -/
structure Renewed (name : String) (n m : Nat) (es : List Ev) (s : Logs) : Prop where
  file : ∀ k, s.names.get? name = some k → m ≤ k
  next : m ≤ s.next
  procs : n ≤ s.opened.length
  old : ∀ i k, i < n → s.opened[i]? = some k → k < m
  data : ∀ k, m ≤ k → ∀ t ∈ s.data k, ∃ j, n ≤ j ∧ t ∈ written j es

theorem written_mono {j : Nat} {t : String} {es : List Ev} (h : t ∈ written j es) (e : Ev) : t ∈ written j (es ++ [e]) := by
  induction es with
  | nil => cases h
  | cons a es ih =>
    rw [written_cons] at h
    rw [List.cons_append, written_cons]
    rcases List.mem_append.1 h with h | h
    · exact List.mem_append_left _ h
    · exact List.mem_append_right _ (ih h)

theorem written_last (j : Nat) (t : String) : ∀ es : List Ev, t ∈ written j (es ++ [.entry j t])
  | [] => by simp [written]
  | e :: es => by rw [List.cons_append, written_cons]; exact List.mem_append_right _ (written_last j t es)

theorem Renewed.step {name : String} {n m : Nat} {es : List Ev} {s : Logs} (h : Renewed name n m es s) (e : Ev) (hb : ∀ a b, e = .rename a b → b ≠ name) :
    Renewed name n m (es ++ [e]) (Rotate.step s e) := by
  have hd : ∀ k, m ≤ k → ∀ t ∈ s.data k, ∃ j, n ≤ j ∧ t ∈ written j (es ++ [e]) := fun k hk t ht => by
    obtain ⟨j, h1, h2⟩ := h.data k hk t ht
    exact ⟨j, h1, written_mono h2 e⟩
  have hold : ∀ l : List Nat, ∀ i k, i < n → (s.opened ++ l)[i]? = some k → k < m := fun l i k hi hk => by
    rw [List.getElem?_append_left (Nat.lt_of_lt_of_le hi h.procs)] at hk
    exact h.old i k hi hk
  cases e with
  | launch a =>
    show Renewed name n m _ (s.launch a)
    unfold Logs.launch
    split
    · exact ⟨h.file, h.next, by have := h.procs; simp; omega, hold _, hd⟩
    · refine ⟨?_, by have := h.next; dsimp only; omega, by have := h.procs; simp; omega, hold _, hd⟩
      intro k hk
      dsimp only at hk
      rw [Dict.get?_set] at hk
      split at hk
      · cases hk; exact h.next
      · exact h.file k hk
  | entry j text =>
    show Renewed name n m _ (s.add j text)
    unfold Logs.add
    split
    · exact ⟨h.file, h.next, h.procs, h.old, hd⟩
    · rename_i k hk
      refine ⟨h.file, h.next, h.procs, h.old, ?_⟩
      intro k' hk' t ht
      dsimp only at ht
      split at ht
      · rename_i he
        rcases List.mem_append.1 ht with ht | ht
        · exact hd k' hk' t ht
        · simp only [List.mem_singleton] at ht
          subst ht
          refine ⟨j, ?_, written_last j t es⟩
          by_contra hlt
          have := h.old j k (by omega) hk
          omega
      · exact hd k' hk' t ht
  | rename a b =>
    show Renewed name n m _ (s.rename a b)
    unfold Logs.rename
    split
    · exact ⟨h.file, h.next, h.procs, h.old, hd⟩
    · refine ⟨?_, h.next, h.procs, h.old, hd⟩
      intro k hk
      dsimp only at hk
      rw [Dict.get?_set_ne _ _ (Ne.symm (hb a b rfl)), Dict.get?_erase] at hk
      split at hk
      · cases hk
      · exact h.file k hk

theorem Renewed.steps {name : String} {n m : Nat} : ∀ (es' es : List Ev) {s : Logs}, Renewed name n m es s → (∀ a b, .rename a b ∈ es' → b ≠ name) →
    Renewed name n m (es ++ es') (Rotate.steps s es')
  | [], es, _, h, _ => by simpa [Rotate.steps] using h
  | e :: es', es, s, h, hb => by
    have := Renewed.steps es' (es ++ [e]) (h.step e (fun a b he => hb a b (he ▸ List.mem_cons_self ..))) (fun a b hm => hb a b (List.mem_cons_of_mem _ hm))
    rw [List.append_assoc] at this
    exact this

/-- Files that are in use exist. -/
structure InUse (s : Logs) : Prop where
  names : ∀ a k, s.names.get? a = some k → k < s.next
  opened : ∀ (i k : Nat), s.opened[i]? = some k → k < s.next
  data : ∀ k, s.next ≤ k → s.data k = []

theorem InUse.step {s : Logs} (h : InUse s) (e : Ev) : InUse (Rotate.step s e) := by
  cases e with
  | launch a =>
    show InUse (s.launch a)
    unfold Logs.launch
    split
    · rename_i k hk
      refine ⟨h.names, ?_, h.data⟩
      intro i k' hi
      dsimp only at hi
      by_cases hlt : i < s.opened.length
      · rw [List.getElem?_append_left hlt] at hi
        exact h.opened i k' hi
      · rw [List.getElem?_append_right (by omega)] at hi
        obtain ⟨_, rfl⟩ := List.getElem?_eq_some_iff.1 hi
        simpa using h.names a k hk
    · refine ⟨?_, ?_, fun k hk => h.data k (by dsimp only at hk; omega)⟩
      · intro b k hk
        dsimp only at hk ⊢
        rw [Dict.get?_set] at hk
        split at hk
        · cases hk; omega
        · have := h.names b k hk; omega
      · intro i k' hi
        dsimp only at hi ⊢
        by_cases hlt : i < s.opened.length
        · rw [List.getElem?_append_left hlt] at hi
          have := h.opened i k' hi; omega
        · rw [List.getElem?_append_right (by omega)] at hi
          obtain ⟨_, rfl⟩ := List.getElem?_eq_some_iff.1 hi
          simp
  | entry j text =>
    show InUse (s.add j text)
    unfold Logs.add
    split
    · exact h
    · rename_i k hk
      refine ⟨h.names, h.opened, ?_⟩
      intro k' hk'
      dsimp only at hk' ⊢
      rw [if_neg]
      · exact h.data k' hk'
      · have := h.opened j k hk; omega
  | rename a b =>
    show InUse (s.rename a b)
    unfold Logs.rename
    split
    · exact h
    · rename_i k hk
      refine ⟨?_, h.opened, h.data⟩
      intro c k' hk'
      dsimp only at hk' ⊢
      rw [Dict.get?_set] at hk'
      split at hk'
      · cases hk'; exact h.names a k hk
      · rw [Dict.get?_erase] at hk'
        split at hk'
        · cases hk'
        · exact h.names c k' hk'

theorem InUse.steps : ∀ (es : List Ev) {s : Logs}, InUse s → InUse (Rotate.steps s es)
  | [], _, h => h
  | e :: es, _, h => InUse.steps es (h.step e)

/-- **C128 is false of the code** Processes that were started before the log file was renamed never write to a file of the configured name again, unless a file is renamed
to it: all that is in such a file then was written by processes started after. -/
theorem C128_false_not_reopened (es1 es2 : List Ev) (name old : String) (hne : old ≠ name) (hb : ∀ a b, .rename a b ∈ es2 → b ≠ name) (k : Nat)
    (hk : (steps .init (es1 ++ .rename name old :: es2)).names.get? name = some k) (text : String)
    (ht : text ∈ (steps .init (es1 ++ .rename name old :: es2)).data k) : ∃ j, launches es1 ≤ j ∧ text ∈ written j es2 := by
  have he : InUse (steps .init es1) := InUse.steps es1 ⟨fun a k h => by simp [Logs.init] at h, fun i k h => by simp [Logs.init] at h, fun _ _ => rfl⟩
  have hlen : (steps .init es1).opened.length = launches es1 := by rw [opened_length]; show 0 + _ = _; omega
  have h0 : Renewed name (launches es1) (steps .init es1).next [] (step (steps .init es1) (.rename name old)) := by
    show Renewed name (launches es1) (steps .init es1).next [] ((steps .init es1).rename name old)
    unfold Logs.rename
    split
    · rename_i hnone
      exact ⟨fun k hk => by (rw [hnone] at hk; cases hk), Nat.le_refl _, by omega, fun i k _ hi => he.opened i k hi,
        fun k hk t ht => by (rw [he.data k hk] at ht; cases ht)⟩
    · refine ⟨?_, Nat.le_refl _, by dsimp only; omega, fun i k _ hi => he.opened i k hi, fun k hk t ht => by (dsimp only at ht; rw [he.data k hk] at ht; cases ht)⟩
      intro k hk
      dsimp only at hk
      rw [Dict.get?_set_ne _ _ (Ne.symm hne), Dict.get?_erase_self] at hk
      cases hk
  have h1 := h0.steps es2 [] hb
  rw [steps_append] at hk ht
  obtain ⟨j, h2, h3⟩ := h1.data k (h1.file k hk) text ht
  exact ⟨j, h2, by simpa using h3⟩

/-! ### The daemon and a program that it runs after the rotation -/

/-- The daemon writes an entry, its log file is renamed, it writes another one and so does a program that was started with the same file. -/
def exEvents : List Ev := [.launch "backy.log", .entry 0 "a", .rename "backy.log" "backy.log.1", .entry 0 "b", .launch "backy.log", .entry 1 "c", .entry 0 "d"]

/-- **C128 is false of the code** (a run): after the rotation there is no file of the configured name although the daemon has written an entry; when there is one it contains
what others write. -/
theorem C128_false_daemon : (steps .init (exEvents.take 4)).names.get? "backy.log" = none ∧
    (steps .init exEvents).names.get? "backy.log" = some 1 ∧ (steps .init exEvents).data 1 = ["c"] ∧
    (steps .init exEvents).names.get? "backy.log.1" = some 0 ∧ (steps .init exEvents).data 0 = ["a", "b", "d"] := by decide

/-- C128_kept_partial, C128_new_partial and C128_false_not_reopened applied to it. -/
example : ∃ file k, (steps .init exEvents).names.get? file = some k ∧ (["a", "b", "d"] : List String).Sublist ((steps .init exEvents).data k) :=
  C128_kept_partial [] [.entry 0 "a", .rename "backy.log" "backy.log.1", .entry 0 "b", .launch "backy.log", .entry 1 "c", .entry 0 "d"] "backy.log"
    ⟨fun _ _ h => (by cases h), fun _ _ h => (by cases h), fun a b h _ => (by cases h; rfl), fun _ _ h => (by cases h), fun _ _ h => (by cases h),
      fun _ _ h => (by cases h), fun _ _ h => (by cases h), trivial⟩
example : ∃ k, (steps .init exEvents).names.get? "backy.log" = some k ∧ (["c"] : List String).Sublist ((steps .init exEvents).data k) :=
  C128_new_partial [.launch "backy.log", .entry 0 "a", .rename "backy.log" "backy.log.1", .entry 0 "b"] [.entry 1 "c", .entry 0 "d"] "backy.log"
    (fun a b h => by simp at h)
example : ∃ j, 1 ≤ j ∧ "c" ∈ written j [.entry 0 "b", .launch "backy.log", .entry 1 "c", .entry 0 "d"] :=
  C128_false_not_reopened [.launch "backy.log", .entry 0 "a"] [.entry 0 "b", .launch "backy.log", .entry 1 "c", .entry 0 "d"] "backy.log" "backy.log.1"
    (by decide) (fun a b h => by simp at h) 1 rfl "c" (by decide)

end Verif.Rotate
