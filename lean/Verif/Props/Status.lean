import Verif.Spec.Status
import Verif.Props.Schedule
import Verif.Props.Daemon
import Mathlib.Data.Finset.Sort
import Mathlib.Data.String.Basic
/-!
# C77, C78: the status report, and skipping a backup because of it
-/
namespace Verif.Daemon
open Verif Verif.Repo Verif.Daemon.Spec

theorem mem_scanClean {s : Repo} (hn : Named s.files) {r : Rev} : r ∈ s.scan.cleanHistory ↔ Complete s.files r := by
  rw [mem_cleanHistory, Repo.scan_mem hn]; rfl

theorem scanClean_nodup (s : Repo) : s.scan.cleanHistory.Nodup :=
  (nodup_of_map_uuid s.scan_nodup).sublist List.filter_sublist

theorem newest_of_last {s : Repo} (hn : Named s.files) {r : Rev} (h : s.scan.cleanHistory.getLast? = some r) :
    Newest s.files r := by
  refine ⟨(mem_scanClean hn).1 (List.mem_of_getLast? h), fun r' hr' => ?_⟩
  have hm := (mem_scanClean hn).2 hr'
  have hs : s.scan.cleanHistory.Pairwise (fun a b => a.ts ≤ b.ts) := s.scan_sorted.sublist List.filter_sublist
  obtain ⟨l, hl⟩ := List.getLast?_eq_some_iff.1 h
  rw [hl] at hm hs
  rcases List.mem_append.1 hm with hm | hm
  · exact (List.pairwise_append.1 hs).2.2 r' hm r (by simp)
  · simp only [List.mem_singleton] at hm; rw [hm]

theorem countRevs_spec : ∀ (l : List Rev) (tags : Finset String) (n : Nat),
    (countRevs l (tags, n)).2 = n + (l.filter (fun r => r.pending)).length ∧
    ∀ t, t ∈ (countRevs l (tags, n)).1 ↔ t ∈ tags ∨ isManual t = true ∧ ∃ r ∈ l, t ∈ r.tags
  | [], tags, n => by simp [countRevs]
  | r :: l, tags, n => by
    obtain ⟨h1, h2⟩ := countRevs_spec l (tags ∪ manualTags r.tags) (if r.pending then n + 1 else n)
    refine ⟨?_, fun t => ?_⟩
    · rw [countRevs, h1]
      by_cases hp : r.pending = true
      · simp [hp]; omega
      · simp [hp]
    · rw [countRevs, h2 t]
      simp only [manualTags, Finset.mem_union, Finset.mem_filter, List.mem_cons, exists_eq_or_imp]
      tauto

theorem intervalOf_eq (sch : Schedule) (t : String) :
    ((sch.get? t).map TagSpec.interval).getD 0 = intervalOf sch t := by
  unfold intervalOf
  cases sch.get? t <;> rfl

theorem shows_sorted {iter : Finset String → List String} (hi : Lists iter) (sch : Schedule) (s : Finset String) :
    Shows sch (sch.sortedTags (iter s)) s := by
  have hp : (sch.sortedTags (iter s)).Perm (iter s) := sortBy_perm _ _
  refine ⟨hp.nodup_iff.2 (hi s).1, fun t => hp.mem_iff.trans ((hi s).2 t), ?_⟩
  have := sortBy_sorted (fun a b => decide (((sch.get? a).map TagSpec.interval).getD 0 ≤ ((sch.get? b).map TagSpec.interval).getD 0))
    (by intro a b h; simp only [decide_eq_false_iff_not, decide_eq_true_eq] at *; omega)
    (by intro a b c h1 h2; simp only [decide_eq_true_eq] at *; omega) (iter s)
  refine List.Pairwise.imp ?_ this
  intro a b h
  rw [decide_eq_true_eq, intervalOf_eq, intervalOf_eq] at h
  exact h

theorem sla_spec {s : Repo} (hn : Named s.files) {sch : Schedule} (hpos : ∀ a ∈ sch.values, 0 < a.interval) {now v : Int}
    (h : s.scan.slaOverdue sch now = .ok v) :
    (v ≠ 0 ↔ TooOld s.files sch now) ∧ (v ≠ 0 → ∃ r, Newest s.files r ∧ v = now - r.ts) := by
  cases hl : s.scan.cleanHistory.getLast? with
  | none =>
    have h0 : v = 0 := by
      simp only [Repo.slaOverdue, hl] at h
      exact (Except.ok.inj h).symm
    subst h0
    refine ⟨⟨fun h => absurd rfl h, ?_⟩, fun h => absurd rfl h⟩
    rintro ⟨⟨r, hr⟩, _⟩
    have := (mem_scanClean hn).2 hr
    rw [List.getLast?_eq_none_iff.1 hl] at this
    simp at this
  | some r =>
    cases hm : (sch.map (fun e => e.2.interval)).min? with
    | none => simp only [Repo.slaOverdue, hl, hm] at h; cases h
    | some m =>
      have hm' := List.min?_eq_some_iff.1 hm
      obtain ⟨e, he, hem⟩ := List.mem_map.1 hm'.1
      have hval : e.2 ∈ sch.values := List.mem_map.2 ⟨e, he, rfl⟩
      have hmin : ∀ b ∈ sch.values, m ≤ b.interval := by
        intro b hb
        obtain ⟨x, hx, rfl⟩ := List.mem_map.1 hb
        exact hm'.2 _ (List.mem_map.2 ⟨x, hx, rfl⟩)
      obtain ⟨v', h1, h2, h3⟩ := C30_sla_exact s.scan sch now m s.scan_sorted hm'.1
        (fun x hx => hm'.2 _ (List.mem_map.2 ⟨x, hx, rfl⟩)) (by have := hpos _ hval; omega)
      rw [h1] at h
      cases h
      have hc : ∀ r, (r ∈ s.scan.history ∧ r.stats.has "duration" = true) ↔ Complete s.files r := fun r => by
        rw [Repo.scan_mem hn]; rfl
      refine ⟨h2.trans ⟨?_, ?_⟩, ?_⟩
      · rintro ⟨⟨r, a, b⟩, hall⟩
        refine ⟨⟨r, (hc r).1 ⟨a, b⟩⟩, e.2, hval, fun b hb => by rw [hem]; exact hmin b hb, fun r hr => ?_⟩
        rw [hem]
        exact hall r ((hc r).2 hr).1 ((hc r).2 hr).2
      · rintro ⟨⟨r, hr⟩, a, ha, hamin, hall⟩
        refine ⟨⟨r, (hc r).2 hr⟩, fun r hr1 hr2 => ?_⟩
        have := hall r ((hc r).1 ⟨hr1, hr2⟩)
        have := hmin a ha
        omega
      · intro hv
        obtain ⟨r, a, b, c, d⟩ := h3 hv
        exact ⟨r, ⟨(hc r).1 ⟨a, b⟩, fun r' hr' => d r' ((hc r').2 hr').1 ((hc r').2 hr').2⟩, c⟩

/-- One entry of the report. -/
theorem statusOf_describes {iter : Finset String → List String} (hi : Lists iter) {now1 now2 : Int} {name : String} {v : JobView}
    (hn : Named v.repo.files) (hpos : ∀ a ∈ v.sch.values, 0 < a.interval) {x : Entry}
    (h : statusOf iter now1 now2 name v = .ok x) : Describes now1 now2 name v x := by
  unfold statusOf at h
  cases h1 : v.repo.scan.slaOverdue v.sch now1 with
  | error e => rw [h1] at h; cases h
  | ok o1 =>
    rw [h1] at h
    cases h2 : v.repo.scan.slaOverdue v.sch now2 with
    | error e => rw [h2] at h; cases h
    | ok o2 =>
      rw [h2] at h
      have hx := Except.ok.inj h
      obtain ⟨s1, _⟩ := sla_spec hn hpos h1
      obtain ⟨s2, s3⟩ := sla_spec hn hpos h2
      obtain ⟨c1, c2⟩ := countRevs_spec v.repo.scan.cleanHistory ∅ 0
      have hcl : ∀ t, v.repo.scan.cleanHistory.getLast?.map Rev.ts = some t →
          ∃ r, v.repo.scan.cleanHistory.getLast? = some r ∧ r.ts = t := by
        intro t ht
        rw [Option.map_eq_some_iff] at ht
        exact ht
      constructor
      · rw [← hx]
      · rw [← s1, ← hx]; simp
      · rw [← hx]; exact s3
      · rw [← hx]; exact s2
      · rw [← hx]
      · rw [← hx]
        dsimp only
        rw [Option.map_eq_none_iff, List.getLast?_eq_none_iff, List.eq_nil_iff_forall_not_mem]
        simp only [mem_scanClean hn, not_exists]
      · intro t ht
        rw [← hx] at ht
        obtain ⟨r, hr, hrt⟩ := hcl t ht
        have hnew := newest_of_last hn hr
        refine ⟨r, v.sch.sortedTags (iter r.tags), hnew, hrt, ?_, ?_, shows_sorted hi _ _⟩
        · rw [← hx]
          dsimp only
          rw [hr]
          have hd := hnew.1.2
          simp only [Dict.has, Option.isSome_iff_exists] at hd
          obtain ⟨n, hd⟩ := hd
          rw [hd]
          simp [hd]
        · rw [← hx]
          dsimp only
          rw [hr]; rfl
      · rw [← hx]
      · rw [← hx]
        dsimp only
        unfold nextTagsOf
        cases v.nextTags with
        | none => simp
        | some s =>
          dsimp only
          split
          · rename_i h; simp [h]
          · rename_i h; simp [h]
      · intro l hl
        rw [← hx] at hl
        dsimp only at hl
        unfold nextTagsOf at hl
        cases hs : v.nextTags with
        | none => rw [hs] at hl; cases hl
        | some s =>
          rw [hs] at hl
          dsimp only at hl
          split at hl
          · cases hl
          · cases hl
            exact ⟨s, rfl, shows_sorted hi _ _⟩
      · intro t
        rw [← hx]
        dsimp only
        rw [c2 t]
        simp only [Finset.notMem_empty, false_or, mem_scanClean hn]
      · rw [← hx]
      · rw [← hx]
        refine ⟨v.repo.scan.cleanHistory.filter (fun r => r.pending), (scanClean_nodup _).sublist List.filter_sublist, fun r => ?_, ?_⟩
        · rw [List.mem_filter, mem_scanClean hn]
          simp [Rev.pending]
        · dsimp only
          rw [c1]; simp
      · rw [← hx]
        refine ⟨v.repo.scan.getHistory true true, (nodup_of_map_uuid v.repo.scan_nodup).sublist List.filter_sublist, fun r => ?_, rfl⟩
        unfold Repo.getHistory
        rw [List.mem_filter, Repo.scan_mem hn]
        simp [Complete, Rev.clean, Rev.isLocal, and_assoc]

/-! ### C77 -/

/-- **C77** The status report has one entry for each job whose name is selected, in order, and each entry describes the job
and the metadata files of its repository correctly: SLA, newest complete revision, tags, number of complete local
revisions and of revisions with unsynchronised changes. -/
theorem C77_status_exact {iter : Finset String → List String} (hi : Lists iter) (now1 now2 : String → Int) (filter : String → Bool) :
    ∀ {jobs : List (String × JobView)} (_ : Sane jobs) {l : List Entry} (_ : statusAll iter now1 now2 filter jobs = .ok l),
    List.Forall₂ (fun e x => Describes (now1 e.1) (now2 e.1) e.1 e.2 x) (jobs.filter (fun e => filter e.1)) l
  | [], _, l, h => by
    rw [statusAll] at h
    cases h
    exact .nil
  | (name, v) :: jobs, hs, l, h => by
    rw [statusAll] at h
    have hs' : Sane jobs := fun e he => hs e (List.mem_cons_of_mem _ he)
    split at h
    · rename_i hf
      rw [List.filter_cons_of_neg (by simp [hf])]
      exact C77_status_exact hi now1 now2 filter hs' h
    · rename_i hf
      cases h1 : statusOf iter (now1 name) (now2 name) name v with
      | error e => rw [h1] at h; cases h
      | ok x =>
        rw [h1] at h
        dsimp only at h
        cases h2 : statusAll iter now1 now2 filter jobs with
        | error e => rw [h2] at h; cases h
        | ok l' =>
          rw [h2] at h
          cases h
          rw [List.filter_cons_of_pos (by simpa using hf)]
          have := hs (name, v) (by simp)
          exact .cons (statusOf_describes hi this.1 this.2 h1) (C77_status_exact hi now1 now2 filter hs' h2)

theorem sla_fails_iff {s : Repo} (hn : Named s.files) (sch : Schedule) (now : Int) :
    (∃ e, s.scan.slaOverdue sch now = .error e) ↔ sch = [] ∧ ∃ r, Complete s.files r := by
  unfold Repo.slaOverdue
  cases hl : s.scan.cleanHistory.getLast? with
  | none =>
    simp only [reduceCtorEq, exists_false, false_iff, not_and, not_exists]
    intro _ r hr
    have := (mem_scanClean hn).2 hr
    rw [List.getLast?_eq_none_iff.1 hl] at this
    simp at this
  | some r =>
    dsimp only
    cases hm : (sch.map (fun e => e.2.interval)).min? with
    | none =>
      rw [List.min?_eq_none_iff, List.map_eq_nil_iff] at hm
      exact ⟨fun _ => ⟨hm, r, (mem_scanClean hn).1 (List.mem_of_getLast? hl)⟩, fun _ => ⟨_, rfl⟩⟩
    | some m =>
      have hne : sch ≠ [] := by rintro rfl; simp at hm
      simp only [hne, false_and, iff_false, not_exists]
      intro e h
      split at h <;> cases h

theorem statusOf_fails_iff {iter : Finset String → List String} {now1 now2 : Int} {name : String} {v : JobView}
    (hn : Named v.repo.files) :
    (∃ e, statusOf iter now1 now2 name v = .error e) ↔ v.sch = [] ∧ ∃ r, Complete v.repo.files r := by
  have h1 := sla_fails_iff hn v.sch now1
  have h2 := sla_fails_iff hn v.sch now2
  unfold statusOf
  cases e1 : v.repo.scan.slaOverdue v.sch now1 with
  | error e => rw [e1] at h1; exact ⟨fun _ => h1.1 ⟨e, rfl⟩, fun _ => ⟨e, rfl⟩⟩
  | ok o1 =>
    rw [e1] at h1
    dsimp only
    cases e2 : v.repo.scan.slaOverdue v.sch now2 with
    | error e => rw [e2] at h2; exact ⟨fun _ => h2.1 ⟨e, rfl⟩, fun _ => ⟨e, rfl⟩⟩
    | ok o2 =>
      rw [e2] at h2
      refine ⟨?_, fun h => ?_⟩
      · rintro ⟨e, h⟩; cases h
      · obtain ⟨e, h⟩ := h2.2 h; cases h

/-- **C77** The request fails exactly if a selected job with a complete revision has a schedule without any tags; then there
is no report for the other jobs either. -/
theorem C77_fails_iff (iter : Finset String → List String) (now1 now2 : String → Int) (filter : String → Bool) :
    ∀ {jobs : List (String × JobView)} (_ : Sane jobs),
    (∃ e, statusAll iter now1 now2 filter jobs = .error e) ↔
      ∃ e ∈ jobs, filter e.1 = true ∧ e.2.sch = [] ∧ ∃ r, Complete e.2.repo.files r
  | [], _ => by simp [statusAll]
  | (name, v) :: jobs, hs => by
    have ih := C77_fails_iff iter now1 now2 filter (jobs := jobs) (fun e he => hs e (List.mem_cons_of_mem _ he))
    have hn := (hs (name, v) (by simp)).1
    rw [statusAll]
    simp only [List.mem_cons, exists_eq_or_imp]
    split
    · rename_i hf
      rw [ih]; simp [hf]
    · rename_i hf
      have hf' : filter name = true := by simpa using hf
      have h1 := statusOf_fails_iff (iter := iter) (now1 := now1 name) (now2 := now2 name) (name := name) hn
      cases e1 : statusOf iter (now1 name) (now2 name) name v with
      | error e => rw [e1] at h1; exact ⟨fun _ => .inl ⟨hf', h1.1 ⟨e, rfl⟩⟩, fun _ => ⟨e, rfl⟩⟩
      | ok x =>
        rw [e1] at h1
        dsimp only
        have h1' : ¬ (v.sch = [] ∧ ∃ r, Complete v.repo.files r) := by
          rw [← h1]; rintro ⟨e, h⟩; cases h
        have : (filter name = true ∧ v.sch = [] ∧ ∃ r, Complete v.repo.files r) ↔ False := by
          simp only [iff_false]; rintro ⟨_, h⟩; exact h1' h
        rw [this, false_or, ← ih]
        cases statusAll iter now1 now2 filter jobs with
        | error e => exact ⟨fun _ => ⟨e, rfl⟩, fun _ => ⟨e, rfl⟩⟩
        | ok l => simp

/-! ### C78 -/

/-- A name without any character that is special in a regular expression. -/
def Literal (name : String) : Prop := plain name = true ∧ '.' ∉ name.toList

theorem matchAll_literal : ∀ (p c : List Char), '.' ∉ p → matchAll p c = true → p = c
  | [], [], _, _ => rfl
  | [], _ :: _, _, h => by simp [matchAll] at h
  | _ :: _, [], _, h => by simp [matchAll] at h
  | p :: ps, c :: cs, hd, h => by
    simp only [List.mem_cons, not_or] at hd
    rw [matchAll, if_neg (fun h => hd.1 h.symm), Bool.and_eq_true, decide_eq_true_eq] at h
    rw [h.1, matchAll_literal ps cs hd.2 h.2]

theorem matchAll_self : ∀ (p : List Char), '\n' ∉ p → matchAll p p = true
  | [], _ => rfl
  | c :: p, h => by
    simp only [List.mem_cons, not_or] at h
    rw [matchAll, matchAll_self p h.2]
    split
    · simp [Ne.symm h.1]
    · simp

theorem searchName_literal {name text : String} (h : Literal name) (ht : '\n' ∉ text.toList) :
    searchName name text = true ↔ text = name := by
  unfold searchName
  have hl : text.toList.getLast? ≠ some '\n' := fun h => ht (List.mem_of_getLast? h)
  simp only [hl, decide_false, Bool.false_and, Bool.or_false]
  constructor
  · intro hm
    exact (String.toList_inj.1 (matchAll_literal _ _ h.2 hm)).symm
  · rintro rfl
    exact matchAll_self _ ht

/-- **C78** Asking for a job by its name selects that job; the only other one it could select has the same name with a newline at the end. -/
theorem C78_only_this_job {name text : String} (h : Literal name) :
    searchName name text = true ↔ (text = name ∨ text = name ++ "\n") := by
  have hn : '\n' ∉ name.toList := by
    intro hm
    have := List.all_eq_true.1 h.1 _ hm
    exact absurd this (by decide)
  unfold searchName
  rw [Bool.or_eq_true, Bool.and_eq_true, decide_eq_true_eq]
  constructor
  · rintro (hm | ⟨hl, hm⟩)
    · exact .inl (String.toList_inj.1 (matchAll_literal _ _ h.2 hm)).symm
    · right
      have e := matchAll_literal _ _ h.2 hm
      rw [← String.toList_inj, String.toList_append, e]
      exact (List.dropLast_append_getLast? _ hl).symm
  · rintro (rfl | rfl)
    · exact .inl (matchAll_self _ hn)
    · right
      have e : (name ++ "\n").toList = name.toList ++ ['\n'] := by rw [String.toList_append]; rfl
      rw [e]
      exact ⟨by simp, by rw [List.dropLast_concat]; exact matchAll_self _ hn⟩

/-- Every entry of an answer describes a job of the peer whose name matches. -/
theorem answerOf_mem {iter : Finset String → List String} (hi : Lists iter) {now1 now2 : String → Int} {name : String}
    {jobs : List (String × JobView)} (hs : Sane jobs) {l : List Status} (h : answerOf iter now1 now2 name jobs = .ok l)
    {st : Status} (hst : st ∈ l) :
    ∃ e ∈ jobs, searchName name e.1 = true ∧ ∃ x, Describes (now1 e.1) (now2 e.1) e.1 e.2 x ∧ st = x.toStatus := by
  unfold answerOf at h
  cases h1 : statusAll iter now1 now2 (searchName name) jobs with
  | error e => rw [h1] at h; cases h
  | ok es =>
    rw [h1] at h
    cases h
    obtain ⟨x, hx, rfl⟩ := List.mem_map.1 hst
    have hall := C77_status_exact hi now1 now2 (searchName name) hs h1
    obtain ⟨e, he, hd⟩ : ∃ e ∈ jobs.filter (fun e => searchName name e.1), Describes (now1 e.1) (now2 e.1) e.1 e.2 x := by
      clear h1 hst
      generalize jobs.filter (fun e => searchName name e.1) = js at hall
      induction hall with
      | nil => simp at hx
      | cons hab _ ih =>
        rcases List.mem_cons.1 hx with rfl | hx
        · exact ⟨_, by simp, hab⟩
        · obtain ⟨e, he, hd⟩ := ih hx
          exact ⟨e, List.mem_cons_of_mem _ he, hd⟩
    rw [List.mem_filter] at he
    exact ⟨e, he.1, he.2, x, hd, rfl⟩

/-- What an honest answer means. -/
theorem honest_mem {seen : List (String × JobView) → Prop} {iter : Finset String → List String} (hi : Lists iter)
    (hs : ∀ jobs, seen jobs → Sane jobs) {name : String} {a : Answer} (ha : Honest seen iter name a) {st : Status}
    {rest : List Status} (h : a = .ok (st :: rest)) :
    ∃ jobs, seen jobs ∧ ∃ e ∈ jobs, searchName name e.1 = true ∧ ∃ now1 now2 x, Describes now1 now2 e.1 e.2 x ∧ st = x.toStatus := by
  rcases ha with ⟨e, he⟩ | ⟨jobs, now1, now2, hj, he⟩
  · rw [he] at h; cases h
  · rw [he] at h
    obtain ⟨e, he, hm, x, hx, hst⟩ := answerOf_mem hi (hs jobs hj) h (List.mem_cons_self ..)
    exact ⟨jobs, hj, e, he, hm, _, _, x, hx, hst⟩

/-- **C78** (any name of ordinary characters and dots) If a job neither attempts a backup nor was told to run immediately, then a
peer has a job with a matching name whose repository holds a complete revision that is newer than five minutes before the
scheduled time. -/
theorem skipped_matching (seen : List (String × JobView) → Prop) (hs : ∀ jobs, seen jobs → Sane jobs)
    (iter : Finset String → List String) (hi : Lists iter) (name : String) (j : Retry) (p : Pass) (answers : List (String × Answer))
    (own : Nat) (polls : List Poll) (h : Plans p)
    (hskip : ∀ d, deadlineOf (pass j p).1 = some d → p.skip = true → waitForLeader answers own d polls = some true)
    (ha : ∀ a ∈ answers, Honest seen iter name a.2) (hp : ∀ q ∈ polls, Honest seen iter name q.answer)
    (hno : ¬ Attempted (pass j p).1) :
    (∃ d jobs, deadlineOf (pass j p).1 = some d ∧ seen jobs ∧ ∃ e ∈ jobs, searchName name e.1 = true ∧
      ∃ r, Complete e.2.repo.files r ∧ d - r.ts < 5 * minute) ∧
    ∃ jobs, seen jobs ∧ ∃ e ∈ jobs, searchName name e.1 = true ∧
      ∃ n, own < n ∧ Counts (fun r => Complete e.2.repo.files r ∧ r.server = "") n := by
  obtain ⟨_, d, server, st, rest, hd, hm, hgt, x, hx, t, ht, hrec⟩ := C52_skips_only_if j p answers own polls h hskip hno
  constructor
  · have hrep : ∃ jobs, seen jobs ∧ ∃ e ∈ jobs, searchName name e.1 = true ∧ ∃ now1 now2 y, Describes now1 now2 e.1 e.2 y ∧
        x = y.toStatus := by
      rcases hx with rfl | ⟨q, hq, rest', hq'⟩
      · exact honest_mem hi hs (ha _ hm) rfl
      · exact honest_mem hi hs (hp q hq) hq'
    obtain ⟨jobs, hj, e, he, hmt, n1, n2, y, hy, rfl⟩ := hrep
    obtain ⟨r, _, hr, hrt, _⟩ := hy.last t ht
    exact ⟨d, jobs, hd, hj, e, he, hmt, r, hr.1, by rw [hrt]; exact hrec⟩
  · obtain ⟨jobs, hj, e, he, hmt, n1, n2, y, hy, rfl⟩ := honest_mem hi hs (ha _ hm) rfl
    exact ⟨jobs, hj, e, he, hmt, _, hgt, hy.localRevs⟩

/-- **C78** If a job whose name has no special characters neither attempts a backup nor was told to run immediately, then
some peer's repository of the same job held a complete revision newer than five minutes before the scheduled time when it was
asked, and some peer's repository of the same job had more complete revisions of its own than ours. -/
theorem C78_skipped_has_backup (seen : List (String × JobView) → Prop) (hs : ∀ jobs, seen jobs → Sane jobs)
    (hnl : ∀ jobs, seen jobs → ∀ e ∈ jobs, '\n' ∉ e.1.toList)
    (iter : Finset String → List String) (hi : Lists iter) (name : String) (hlit : Literal name) (j : Retry) (p : Pass)
    (answers : List (String × Answer)) (own : Nat) (polls : List Poll) (h : Plans p)
    (hskip : ∀ d, deadlineOf (pass j p).1 = some d → p.skip = true → waitForLeader answers own d polls = some true)
    (ha : ∀ a ∈ answers, Honest seen iter name a.2) (hp : ∀ q ∈ polls, Honest seen iter name q.answer)
    (hno : ¬ Attempted (pass j p).1) :
    (∃ d jobs v, deadlineOf (pass j p).1 = some d ∧ seen jobs ∧ (name, v) ∈ jobs ∧
      ∃ r, Complete v.repo.files r ∧ d - r.ts < 5 * minute) ∧
    ∃ jobs v, seen jobs ∧ (name, v) ∈ jobs ∧ ∃ n, own < n ∧ Counts (fun r => Complete v.repo.files r ∧ r.server = "") n := by
  obtain ⟨⟨d, jobs, hd, hj, ⟨n1, v⟩, he, hm, r, hr⟩, jobs', hj', ⟨n2, v'⟩, he', hm', n, hn⟩ :=
    skipped_matching seen hs iter hi name j p answers own polls h hskip ha hp hno
  have e1 := (searchName_literal hlit (hnl _ hj _ he)).1 hm
  have e2 := (searchName_literal hlit (hnl _ hj' _ he')).1 hm'
  dsimp only at e1 e2
  subst e1 e2
  exact ⟨⟨d, jobs, v, hd, hj, he, r, hr⟩, jobs', v', hj', he', n, hn⟩

/-- Some tags. -/
def exTags : List String := ["weekly", "manual:x", "daily"]

/-- A way to list a set. -/
def exIter (s : Finset String) : List String :=
  if s ⊆ exTags.toFinset then exTags.filter (fun t => decide (t ∈ s)) else s.sort (· ≤ ·)

theorem exIter_lists : Lists exIter := by
  intro s
  unfold exIter
  split
  · rename_i h
    refine ⟨List.Nodup.filter _ (by decide), fun t => ?_⟩
    rw [List.mem_filter, decide_eq_true_eq]
    exact ⟨fun h => h.2, fun ht => ⟨List.mem_toFinset.1 (h ht), ht⟩⟩
  · exact ⟨Finset.sort_nodup _ _, fun _ => Finset.mem_sort _⟩

/-- A repository with a complete local revision, an incomplete one and one from another server with changed tags. -/
def exFiles : Dict String RevFile :=
  [("u1", ⟨false, ⟨"u1", 10 * minute, [("duration", 7)], .trusted, {"daily", "manual:x"}, {"daily"}, ""⟩⟩),
   ("u2", ⟨false, ⟨"u2", 12 * minute, [], .trusted, {"daily"}, {"daily"}, ""⟩⟩),
   ("u3", ⟨false, ⟨"u3", 11 * minute, [("duration", 3)], .trusted, {"weekly", "daily"}, {"daily"}, "far"⟩⟩)]

/-- A job with it. -/
def exView : JobView :=
  { repo := { files := exFiles, history := [] }, sch := [("weekly", ⟨7 * 24 * 60 * minute, 4⟩), ("daily", ⟨24 * 60 * minute, 5⟩)]
    status := "finished", nextTime := none, nextTags := none, reports := ["p"] }

/-- A job without any revisions. -/
def exIdle : JobView := { exView with repo := { files := [], history := [] }, status := "" }

theorem exSane (n m : String) : Sane [(n, exView), (m, exIdle)] := by
  intro e he
  simp only [List.mem_cons, List.not_mem_nil, or_false] at he
  rcases he with rfl | rfl
  · refine ⟨⟨(by decide : exFiles.keys.Nodup), ?_⟩, (by decide : ∀ a ∈ exView.sch.values, 0 < a.interval)⟩
    intro n f hf hl
    simp only [exView, exFiles, List.mem_cons, Prod.mk.injEq, List.not_mem_nil, or_false] at hf
    rcases hf with ⟨rfl, rfl⟩ | ⟨rfl, rfl⟩ | ⟨rfl, rfl⟩ <;> rfl
  · exact ⟨⟨(by decide : exIdle.repo.files.keys.Nodup), by intro n f hf; simp [exIdle] at hf⟩, (by decide : ∀ a ∈ exIdle.sch.values, 0 < a.interval)⟩

/-- The report for these jobs. -/
theorem exStatus : statusAll exIter (fun _ => 20 * minute) (fun _ => 20 * minute) (fun n => n == "vm-1") [("vm-1", exView), ("vm-2", exIdle)] =
    .ok [{ job := "vm-1", slaOk := true, slaOverdue := 0, status := "finished", lastTime := some (11 * minute),
           lastTags := some ["daily", "weekly"], lastDuration := some 3, nextTime := none, nextTags := none,
           manualTags := {"manual:x"}, problemReports := 1, unsyncedRevs := 1, localRevs := 1 }] := by
  decide +kernel

/-- A schedule without tags makes the whole report fail. -/
example : statusAll exIter (fun _ => 20 * minute) (fun _ => 20 * minute) (fun _ => true)
    [("vm-2", exIdle), ("vm-1", { exView with sch := [] })] = .error .value := by decide +kernel

/-- The answer of a peer with these jobs. -/
def exAnswer : Answer :=
  answerOf exIter (fun _ => 20 * minute) (fun _ => 20 * minute) "vm-1" [("vm-1", exView), ("vm-2", exIdle)]

/-- The pass of a job whose backup is due at minute 13. -/
def exPass : Pass := { exFail 0 with planned := .ok (13 * minute, {"daily"}), skip := true }

/-- The hypotheses of C78 are met: a job skips its backup. -/
example : Literal "vm-1" ∧ waitForLeader [("peer", exAnswer)] 0 (13 * minute) [] = some true ∧
    ¬ Attempted (pass .init exPass).1 ∧ Honest (fun jobs => jobs = [("vm-1", exView), ("vm-2", exIdle)]) exIter "vm-1" exAnswer := by
  refine ⟨⟨by decide +kernel, by decide +kernel⟩, by decide +kernel, ?_, .inr ⟨_, _, _, rfl, rfl⟩⟩
  rintro ⟨fast, h⟩
  cases fast <;> revert h <;> decide +kernel

/-- **C78** (why the name must not have special characters) The name is used as a regular expression: the job `vm.1` skips
its backup because of a backup of the unrelated job `vm-1`, although the peer, which has the job, has no backup of it at all. -/
theorem C78_wrong_job : ∃ (name : String) (jobs : List (String × JobView)) (v : JobView) (p : Pass) (now : String → Int),
    plain name = true ∧ Sane jobs ∧ (∀ e ∈ jobs, '\n' ∉ e.1.toList) ∧ (jobs.map Prod.fst).Nodup ∧ Lists exIter ∧ Plans p ∧
    (name, v) ∈ jobs ∧ (∀ r, ¬ Complete v.repo.files r) ∧ p.skip = true ∧
    (∀ d, deadlineOf (pass .init p).1 = some d →
      waitForLeader [("peer", answerOf exIter now now name jobs)] 0 d [] = some true) ∧
    ¬ Attempted (pass .init p).1 := by
  refine ⟨"vm.1", [("vm-1", exView), ("vm.1", exIdle)], exIdle, exPass, fun _ => 20 * minute, by decide +kernel, exSane _ _,
    by decide +kernel, by decide +kernel, exIter_lists, ⟨rfl, _, rfl⟩, by simp, ?_, rfl, ?_, ?_⟩
  · rintro r ⟨h, _⟩
    simp [exIdle, onDisk] at h
  · intro d hd
    have : d = 13 * minute := by
      have h2 : deadlineOf (pass .init exPass).1 = some (13 * minute) := by decide +kernel
      rw [h2] at hd
      exact (Option.some.inj hd).symm
    subst this
    decide +kernel
  · rintro ⟨fast, h⟩
    cases fast <;> revert h <;> decide +kernel


example : searchName "vm-1" "vm-1" = true ∧ searchName "vm-1" "vm-10" = false ∧ searchName "vm-1" "other\n" = false ∧
    searchName "vm-1" "vm-1\n" = true := by decide +kernel

example := @C78_only_this_job "vm-1" "vm-10" ⟨by decide +kernel, by decide +kernel⟩

example := C77_status_exact exIter_lists (fun _ => 20 * minute) (fun _ => 20 * minute) (fun n => n == "vm-1") (exSane "vm-1" "vm-2") exStatus
example := C77_fails_iff exIter (fun _ => 20 * minute) (fun _ => 20 * minute) (fun n => n == "vm-1") (exSane "vm-1" "vm-2")

end Verif.Daemon
