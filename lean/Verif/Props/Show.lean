import Verif.Model.Show
import Verif.Props.Status
import Verif.Props.Background
/-!
# C97: what `backy show-jobs` and `backy show-daemon` show
-/
namespace Verif.Show
open Verif Verif.Repo Verif.Commands Verif.Daemon Verif.Background Verif.Daemon.Spec

/-- The daemon that lists its jobs is the one that reports their status: the same jobs, with different names, each in a directory of its name. -/
structure SameJobs (refs : List JobRef) (views : List (String × JobView)) : Prop where
  names : refs.map JobRef.name = views.map Prod.fst
  nodup : (views.map Prod.fst).Nodup
  dirs : ∃ base, ∀ j ∈ refs, InDir base j

/-- The empty expression matches everything. -/
def Regex (compile : String → Except PyErr (String → Bool)) : Prop := compile "" = .ok (fun _ => true)

theorem byName_tot (a b : Entry) (h : byName a b = false) : byName b a = true := by
  simp only [byName, decide_eq_false_iff_not, decide_eq_true_eq] at *
  exact (String.le_total a.job b.job).resolve_left h

theorem byName_tr (a b c : Entry) (h : byName a b = true) (h' : byName b c = true) : byName a c = true := by
  simp only [byName, decide_eq_true_eq] at *
  exact String.le_trans h h'

theorem selected {compile : String → Except PyErr (String → Bool)} (hre : Regex compile) {p : String} {m : String → Bool}
    (hm : compile p = .ok m) : (if p = "" then Except.ok (fun _ => true) else compile p : Except PyErr (String → Bool)) = .ok m := by
  split
  · rename_i h; subst h; unfold Regex at hre; rw [hre] at hm; exact hm
  · exact hm

theorem filterDead_ok {compile : String → Except PyErr (String → Bool)} (hre : Regex compile) {p : String} {m : String → Bool}
    (hm : compile p = .ok m) (dead : List String) : filterDead compile (some p) dead = .ok (dead.filter m) := by
  unfold filterDead
  dsimp only
  split
  · rename_i h
    subst h
    unfold Regex at hre
    rw [hre] at hm
    cases hm
    simp
  · rw [hm]

theorem mem_names {refs : List JobRef} {views : List (String × JobView)} (h : SameJobs refs views) (m : String → Bool) (n : String) :
    n ∈ (refs.filter (fun j => m j.name)).map (fun j => pathName j.path) ↔ n ∈ views.map Prod.fst ∧ m n = true := by
  obtain ⟨base, hd⟩ := h.dirs
  rw [← h.names]
  simp only [List.mem_map, List.mem_filter]
  constructor
  · rintro ⟨j, ⟨hj, hmj⟩, rfl⟩
    rw [(hd j hj).name]
    exact ⟨⟨j, hj, rfl⟩, hmj⟩
  · rintro ⟨⟨j, hj, rfl⟩, hmj⟩
    exact ⟨j, ⟨hj, hmj⟩, (hd j hj).name⟩

theorem getRepos_cases {refs : List JobRef} {views : List (String × JobView)} (h : SameJobs refs views) (m : String → Bool) :
    (getRepos (.ok refs) (.ok m) = .ok (refs.filter (fun j => m j.name)) ∧ ∃ e ∈ views, m e.1 = true) ∨
    (getRepos (.ok refs) (.ok m) = .error .assertion ∧ ∀ e ∈ views, m e.1 = false) := by
  have key : ∀ n, n ∈ (refs.filter (fun j => m j.name)).map (fun j => pathName j.path) ↔ _ := mem_names h m
  unfold getRepos
  dsimp only
  split
  · rename_i h0
    refine .inr ⟨rfl, fun e he => ?_⟩
    have := h.names
    rw [h0] at this
    have : e.1 ∈ views.map Prod.fst := List.mem_map_of_mem he
    rw [← h.names, h0] at this
    simp at this
  · split
    · rename_i h0
      refine .inr ⟨rfl, fun e he => ?_⟩
      cases hme : m e.1 with
      | false => rfl
      | true =>
        have := (key e.1).2 ⟨List.mem_map_of_mem he, hme⟩
        rw [h0] at this
        simp at this
    · rename_i h0
      refine .inl ⟨rfl, ?_⟩
      obtain ⟨j, hj⟩ := List.exists_mem_of_ne_nil _ h0
      have := (key (pathName j.path)).1 (List.mem_map_of_mem hj)
      obtain ⟨⟨e, he, hen⟩, hm⟩ := And.intro (List.mem_map.1 this.1) this.2
      exact ⟨e, he, by rw [hen]; exact hm⟩

theorem describes_names {now1 now2 : String → Int} : ∀ {vs : List (String × JobView)} {l : List Entry},
    List.Forall₂ (fun e x => Describes (now1 e.1) (now2 e.1) e.1 e.2 x) vs l → l.map Entry.job = vs.map Prod.fst
  | _, _, .nil => rfl
  | _, _, .cons h hs => by simp only [List.map_cons]; rw [h.job, describes_names hs]

/-- **C97** `backy --jobs <regex> show-jobs` shows exactly the jobs of the daemon whose name matches, each once, correctly described and sorted by name, and then
the repositories without a job whose name matches; the number given at the end is the number of rows. -/
theorem C97_rows {iter : Finset String → List String} (hi : Lists iter) (now1 now2 : String → Int)
    {compile : String → Except PyErr (String → Bool)} (hre : Regex compile) {p : String} {m : String → Bool} (hm : compile p = .ok m)
    {refs : List JobRef} {views : List (String × JobView)} (hs : Sane views) (hsame : SameJobs refs views)
    (own : Except PyErr String) (dead : List String) {code : Nat} {rows : List Row} {n : Nat}
    (h : mainShowJobs own compile (some p) (.ok refs) (statusAnswer iter now1 now2 compile views) (.ok dead) = (code, some (rows, n))) :
    code = 0 ∧ n = rows.length ∧ ∃ live, rows = live.map Row.live ++ (dead.filter m).map Row.dead ∧
      live.Pairwise (fun a b => a.job < b.job) ∧
      ∃ l, l.Perm live ∧ List.Forall₂ (fun e x => Describes (now1 e.1) (now2 e.1) e.1 e.2 x) (views.filter (fun e => m e.1)) l := by
  unfold mainShowJobs repoNames at h
  dsimp only at h
  rw [hm] at h
  rcases getRepos_cases hsame m with ⟨hg, _⟩ | ⟨hg, _⟩
  · rw [hg] at h
    dsimp only at h
    unfold showJobs fetchStatus statusAnswer at h
    dsimp only at h
    rw [selected hre hm] at h
    dsimp only at h
    cases hst : statusAll iter now1 now2 m views with
    | error e => rw [hst] at h; simp at h
    | ok l =>
      rw [hst] at h
      dsimp only at h
      rw [filterDead_ok hre hm] at h
      dsimp only at h
      simp only [Prod.mk.injEq, Option.some.injEq] at h
      obtain ⟨rfl, hrows, hn⟩ := h
      have hd := C77_status_exact hi now1 now2 m hs hst
      have hnames := describes_names hd
      have hperm := sortBy_perm byName l
      have hall : (sortBy byName l).filter (fun e => decide (e.job ∈ (refs.filter (fun j => m j.name)).map (fun j => pathName j.path))) = sortBy byName l := by
        rw [List.filter_eq_self]
        intro e he
        have he' : e.job ∈ l.map Entry.job := List.mem_map_of_mem (hperm.mem_iff.1 he)
        rw [hnames] at he'
        obtain ⟨v, hv, hve⟩ := List.mem_map.1 he'
        rw [decide_eq_true_eq, mem_names hsame, ← hve]
        exact ⟨List.mem_map_of_mem (List.mem_filter.1 hv).1, by simpa using (List.mem_filter.1 hv).2⟩
      rw [hall] at hrows
      refine ⟨rfl, ?_, sortBy byName l, hrows.symm, ?_, l, hperm.symm, hd⟩
      · rw [← hrows, ← hn]; simp
      · have hsort := sortBy_sorted byName byName_tot byName_tr l
        have hnd : ((sortBy byName l).map Entry.job).Nodup := by
          rw [(hperm.map Entry.job).nodup_iff, hnames]
          exact hsame.nodup.sublist (List.filter_sublist.map _)
        have hne : (sortBy byName l).Pairwise (fun a b => a.job ≠ b.job) := List.pairwise_map.1 hnd
        refine (hsort.and hne).imp ?_
        rintro a b ⟨h1, h2⟩
        simp only [byName, decide_eq_true_eq] at h1
        exact lt_of_le_of_ne h1 h2
  · rw [hg] at h; simp at h

/-- **C97** It fails (with exit code 1 and without output) exactly if no job matches, or if a matching job with a complete revision has a schedule without tags. -/
theorem C97_fails_iff {iter : Finset String → List String} (now1 now2 : String → Int)
    {compile : String → Except PyErr (String → Bool)} (hre : Regex compile) {p : String} {m : String → Bool} (hm : compile p = .ok m)
    {refs : List JobRef} {views : List (String × JobView)} (hs : Sane views) (hsame : SameJobs refs views)
    (own : Except PyErr String) (dead : List String) :
    (mainShowJobs own compile (some p) (.ok refs) (statusAnswer iter now1 now2 compile views) (.ok dead) = (1, none) ↔
      (∀ e ∈ views, m e.1 = false) ∨ ∃ e ∈ views, m e.1 = true ∧ e.2.sch = [] ∧ ∃ r, Complete e.2.repo.files r) ∧
    (mainShowJobs own compile (some p) (.ok refs) (statusAnswer iter now1 now2 compile views) (.ok dead) ≠ (1, none) →
      ∃ r, mainShowJobs own compile (some p) (.ok refs) (statusAnswer iter now1 now2 compile views) (.ok dead) = (0, some r)) := by
  have hf := C77_fails_iff iter now1 now2 m hs
  unfold mainShowJobs repoNames
  dsimp only
  rw [hm]
  rcases getRepos_cases hsame m with ⟨hg, e, he, hme⟩ | ⟨hg, hno⟩
  · rw [hg]
    dsimp only
    unfold showJobs fetchStatus statusAnswer
    dsimp only
    rw [selected hre hm]
    dsimp only
    have hn : ¬ ∀ e ∈ views, m e.1 = false := fun hn => by rw [hn e he] at hme; cases hme
    rw [← hf]
    cases hst : statusAll iter now1 now2 m views with
    | error x => exact ⟨⟨fun _ => .inr ⟨x, rfl⟩, fun _ => rfl⟩, fun h => absurd rfl h⟩
    | ok l =>
      dsimp only
      rw [filterDead_ok hre hm]
      dsimp only
      refine ⟨⟨fun h => by simp at h, ?_⟩, fun _ => ⟨_, rfl⟩⟩
      rintro (h | ⟨x, h⟩)
      · exact absurd h hn
      · cases h
  · rw [hg]
    exact ⟨⟨fun _ => .inl hno, fun _ => rfl⟩, fun h => absurd rfl h⟩

/-- **C97** Without `--jobs` or `-a` the command always fails, with exit code 1 and without output. -/
theorem C97_needs_jobs (own : Except PyErr String) (compile : String → Except PyErr (String → Bool)) (answer : Except PyErr (List JobRef))
    (ask : String → Except PyErr (List Entry)) (dead : Except PyErr (List String)) :
    mainShowJobs own compile none answer ask dead = (1, none) := by
  unfold mainShowJobs repoNames
  cases own with
  | error e => rfl
  | ok n => rfl

/-- **C97** If the daemon changes between the requests, jobs that were not there for the first one or are gone for the second are not shown. -/
theorem C97_changing (own : Except PyErr String) (compile : String → Except PyErr (String → Bool)) (p : String) (answer : Except PyErr (List JobRef))
    (ask : String → Except PyErr (List Entry)) (dead : Except PyErr (List String)) {code : Nat} {rows : List Row} {n : Nat}
    (h : mainShowJobs own compile (some p) answer ask dead = (code, some (rows, n))) :
    ∃ m refs l d, compile p = .ok m ∧ answer = .ok refs ∧ ask p = .ok l ∧ dead = .ok d ∧ rows.length ≤ n ∧
      (∀ e, Row.live e ∈ rows ↔ e ∈ l ∧ ∃ j ∈ refs, m j.name = true ∧ pathName j.path = e.job) ∧
      (∀ x, Row.dead x ∈ rows → x ∈ d) := by
  unfold mainShowJobs repoNames at h
  dsimp only at h
  cases answer with
  | error e => simp [getRepos] at h
  | ok refs =>
    cases hm : compile p with
    | error e =>
      rw [hm] at h
      have hg : ∃ x, getRepos (.ok refs) (.error e) = .error x := by
        simp only [getRepos]
        split <;> exact ⟨_, rfl⟩
      obtain ⟨x, hg⟩ := hg
      rw [hg] at h
      simp at h
    | ok m =>
      rw [hm] at h
      have hg : getRepos (.ok refs) (.ok m) = .ok (refs.filter (fun j => m j.name)) := by
        unfold getRepos at h ⊢
        dsimp only at h ⊢
        split
        · rename_i h0; rw [if_pos h0] at h; simp at h
        · rename_i h0
          rw [if_neg h0] at h
          split
          · rename_i h1; rw [if_pos h1] at h; simp at h
          · rfl
      rw [hg] at h
      dsimp only at h
      unfold showJobs fetchStatus at h
      dsimp only at h
      cases hl : ask p with
      | error e => rw [hl] at h; simp at h
      | ok l =>
        rw [hl] at h
        cases dead with
        | error e => simp at h
        | ok d =>
          dsimp only at h
          have hfd : ∃ d', filterDead compile (some p) d = .ok d' ∧ ∀ x ∈ d', x ∈ d := by
            unfold filterDead
            dsimp only
            split
            · exact ⟨d, rfl, fun _ hx => hx⟩
            · rw [hm]; exact ⟨_, rfl, fun x hx => (List.mem_filter.1 hx).1⟩
          obtain ⟨d', h1, h2⟩ := hfd
          rw [h1] at h
          simp only [Prod.mk.injEq, Option.some.injEq] at h
          obtain ⟨_, hrows, hn⟩ := h
          refine ⟨m, refs, l, d, rfl, rfl, rfl, rfl, ?_, ?_, ?_⟩
          · rw [← hrows, ← hn]
            simp only [List.length_append, List.length_map]
            have := List.length_filter_le (fun e => decide (e.job ∈ (refs.filter (fun j => m j.name)).map (fun j => pathName j.path))) (sortBy byName l)
            omega
          · intro e
            rw [← hrows]
            simp [(sortBy_perm byName l).mem_iff, and_assoc]
          · intro x hx
            rw [← hrows] at hx
            simp at hx
            exact h2 x hx

/-! ## `show-daemon` -/

theorem summary_spec : ∀ (l : List String) (d : Dict String Nat), d.keys.Nodup → (∀ s n, d.get? s = some n → 0 < n) →
    (summary l d).keys.Nodup ∧ (∀ s n, (summary l d).get? s = some n → 0 < n) ∧
    ∀ s, ((summary l d).get? s).getD 0 = (d.get? s).getD 0 + l.count s
  | [], d, hn, hp => ⟨hn, hp, fun s => by simp [summary]⟩
  | x :: l, d, hn, hp => by
    simp only [summary]
    obtain ⟨h1, h2, h3⟩ := summary_spec l (d.set x ((d.get? x).getD 0 + 1)) (Dict.nodup_set hn _ _) (by
      intro s n h
      rw [Dict.get?_set] at h
      split at h
      · cases h; omega
      · exact hp s n h)
    refine ⟨h1, h2, fun s => ?_⟩
    rw [h3, Dict.get?_set, List.count_cons]
    by_cases h : s = x
    · subst h; simp; omega
    · simp [h, Ne.symm h]

/-- **C97** `backy show-daemon` shows every status that a job has, once and in order, with the number of jobs that have it; repositories without a job
count as "Dead". -/
theorem C97_summary (jobs dead : List String) : ∃ rows, mainShowDaemon none (.ok jobs) (.ok dead) = (0, some rows) ∧
    (rows.map Prod.fst).Pairwise (fun a b => a < b) ∧
    ∀ s n, (s, n) ∈ rows ↔ 0 < n ∧ n = jobs.count s + if s = "Dead" then dead.length else 0 := by
  refine ⟨_, rfl, ?_, ?_⟩
  · obtain ⟨h1, _, _⟩ := summary_spec (jobs ++ dead.map (fun _ => "Dead")) [] (by simp [Dict.keys]) (by simp)
    unfold summaryRows
    rw [List.map_map]
    generalize summary (jobs ++ dead.map (fun _ => "Dead")) [] = d at *
    have hid : (Prod.fst ∘ fun s : String => (s, (d.get? s).getD 0)) = id := rfl
    rw [hid, List.map_id]
    have hperm := sortBy_perm (fun a b : String => decide (a ≤ b)) d.keys
    have hs := sortBy_sorted (fun a b : String => decide (a ≤ b))
      (fun a b h => by
        simp only [decide_eq_false_iff_not, decide_eq_true_eq] at *
        exact (String.le_total a b).resolve_left h)
      (fun a b c h h' => by simp only [decide_eq_true_eq] at *; exact String.le_trans h h') d.keys
    refine (hs.and (hperm.nodup_iff.2 h1)).imp ?_
    rintro a b ⟨g1, g2⟩
    exact lt_of_le_of_ne (of_decide_eq_true g1) g2
  · obtain ⟨h1, h2, h3⟩ := summary_spec (jobs ++ dead.map (fun _ => "Dead")) [] (by simp [Dict.keys]) (by simp)
    intro s n
    have h3 := h3 s
    have hc : (dead.map (fun _ => "Dead")).count s = if s = "Dead" then dead.length else 0 := by
      rw [List.map_const']
      split
      · rename_i h; subst h; simp
      · rename_i h; rw [List.count_replicate]; simp [Ne.symm h]
    rw [List.count_append, hc] at h3
    unfold summaryRows
    generalize summary (jobs ++ dead.map (fun _ => "Dead")) [] = d at *
    simp only [Dict.get?_nil, Option.getD_none, Nat.zero_add] at h3
    rw [← h3]
    simp only [List.mem_map, Prod.mk.injEq]
    constructor
    · rintro ⟨s', hs', rfl, rfl⟩
      have := (sortBy_perm _ _).mem_iff.1 hs'
      rw [Dict.mem_keys_iff] at this
      obtain ⟨v, hv⟩ := Option.isSome_iff_exists.1 this
      exact ⟨by rw [hv]; exact h2 _ _ hv, rfl⟩
    · rintro ⟨hpos, rfl⟩
      refine ⟨s, (sortBy_perm _ _).mem_iff.2 ?_, rfl, rfl⟩
      rw [Dict.mem_keys_iff]
      cases h : d.get? s with
      | none => rw [h] at hpos; simp at hpos
      | some v => rfl

/-- **C97** If the daemon does not answer one of its questions, or with `--jobs`, it shows nothing and exits with 1. -/
theorem C97_daemon_fails (pattern : Option String) (jobs dead : Except PyErr (List String))
    (h : pattern ≠ none ∨ (∃ e, jobs = .error e) ∨ ∃ e, dead = .error e) : mainShowDaemon pattern jobs dead = (1, none) := by
  unfold mainShowDaemon
  rcases h with h | ⟨e, rfl⟩ | ⟨e, rfl⟩
  · rw [if_pos h]
  · split <;> rfl
  · split
    · rfl
    · cases jobs <;> rfl

/-! ## A concrete case -/

/-- Expressions that are plain text; "(" is not an expression. -/
def exCompile (p : String) : Except PyErr (String → Bool) :=
  if p = "(" then .error .value else if p = "" then .ok (fun _ => true) else .ok (fun n => n == p)

/-- The jobs of the daemon. -/
def exRefs : List JobRef := [⟨"vm-1", "/srv/backy/vm-1", exView.sch⟩, ⟨"vm-2", "/srv/backy/vm-2", exIdle.sch⟩]

theorem exSame : SameJobs exRefs [("vm-1", exView), ("vm-2", exIdle)] where
  names := rfl
  nodup := by decide
  dirs := by
    refine ⟨"/srv/backy", fun j hj => ?_⟩
    simp only [exRefs, List.mem_cons, List.not_mem_nil, or_false] at hj
    rcases hj with rfl | rfl <;> exact ⟨by decide, by decide⟩

example : Regex exCompile := by simp [Regex, exCompile]

example : (match mainShowJobs (.ok "vm-1") exCompile (some "vm-1") (.ok exRefs)
    (statusAnswer exIter (fun _ => 20 * minute) (fun _ => 20 * minute) exCompile [("vm-1", exView), ("vm-2", exIdle)]) (.ok ["old", "vm-1"]) with
  | (c, some (rows, n)) => (c, n, rows.map (fun r => match r with | .live e => (true, e.job) | .dead x => (false, x)))
  | (c, none) => (c, 0, [])) = (0, 2, [(true, "vm-1"), (false, "vm-1")]) := by decide +kernel

example : (mainShowDaemon none (.ok ["running", "waiting", "running"]) (.ok ["old"])) =
    (0, some [("Dead", 1), ("running", 2), ("waiting", 1)]) := by decide +kernel

theorem exCompile_regex : Regex exCompile := by simp [Regex, exCompile]

/-- What the client shows in the example. -/
theorem exShown : ∃ rows, mainShowJobs (.ok "vm-1") exCompile (some "vm-1") (.ok exRefs)
    (statusAnswer exIter (fun _ => 20 * minute) (fun _ => 20 * minute) exCompile [("vm-1", exView), ("vm-2", exIdle)]) (.ok ["old", "vm-1"]) =
      (0, some (rows, 2)) := ⟨_, rfl⟩

/-- C97_rows: one live and one dead job. -/
example := C97_rows exIter_lists (fun _ => 20 * minute) (fun _ => 20 * minute) exCompile_regex (p := "vm-1") rfl
  (exSane "vm-1" "vm-2") exSame (.ok "vm-1") ["old", "vm-1"] exShown.choose_spec
example := C97_fails_iff (iter := exIter) (fun _ => 20 * minute) (fun _ => 20 * minute) exCompile_regex (p := "vm-1") rfl
    (exSane "vm-1" "vm-2") exSame (.ok "vm-1") ["old", "vm-1"]
example := C97_changing _ _ _ _ _ _ exShown.choose_spec
example := C97_daemon_fails (some "vm-1") (.ok ["running"]) (.ok []) (.inl (by decide))

end Verif.Show
