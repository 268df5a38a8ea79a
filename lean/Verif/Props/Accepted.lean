import Verif.Model.Accepted
import Verif.Props.Config
import Verif.Props.Spread
import Verif.Props.Passes
import Verif.Props.Expiry
/-!
# C124: an accepted configuration can be carried out

False of the code: intervals of zero, schedules without tags and tags without `keep` are accepted.
-/
namespace Verif.Accepted
open Verif Verif.Repo Verif.Config Verif.Daemon Verif.Daemon.Spec

/-- A definition of a schedule with which nothing is wrong: at least one tag, intervals of a positive length, whole numbers of
revisions to keep, and names of tags that can be used in revision expressions. -/
def Sound (y : Yaml) : Prop :=
  ∃ m, y = .map m ∧ m ≠ [] ∧ ∀ e ∈ m, PlainTag e.1 ∧ ∃ spec text d, e.2 = .map spec ∧ Dict.get? spec "interval" = some (.str text) ∧
    parseDuration text = .ok d ∧ 0 < d ∧ ∃ k : Nat, Dict.get? spec "keep" = some (.int k)

/-- In this pass of its loop the job `name` plans and expires by the schedule `o`, at whatever time and with whatever
revisions. -/
structure Follows (env : Spread.Env) (name : String) (o : SchedObj) (p : Pass) : Prop where
  connected : p.connected = true
  planned : ∃ relative s nowM now1 now2, p.planned = plan env name o relative s nowM now1 now2
  expires : ∃ pd now s, p.failing .expire = true ↔ ∀ l, (expire o pd now s).1 ≠ .ok l

theorem configureTags_ok : ∀ (m : List (String × Yaml)), (∀ e ∈ m, PlainTag e.1 ∧ ∃ spec text d, e.2 = .map spec ∧
      Dict.get? spec "interval" = some (.str text) ∧ parseDuration text = .ok d ∧ 0 < d ∧ ∃ k : Nat, Dict.get? spec "keep" = some (.int k)) →
    ∃ l, configureTags m = .ok l ∧ l.length = m.length ∧
      ∀ e ∈ l, PlainTag e.1 ∧ 0 < e.2.1 ∧ ∃ k : Nat, Dict.get? e.2.2 "keep" = some (.int k)
  | [], _ => ⟨[], rfl, rfl, by simp⟩
  | (tag, y) :: rest, h => by
    obtain ⟨l, h1, h2, h3⟩ := configureTags_ok rest (fun e he => h e (by simp [he]))
    obtain ⟨hp, spec, text, d, a1, a2, a3, a4, k, a5⟩ := h (tag, y) (by simp)
    dsimp only at a1 hp
    subst a1
    refine ⟨(tag, d, spec) :: l, ?_, by simp [h2], ?_⟩
    · simp only [configureTags, specOf, intervalOf, a2, a3, h1]
    · intro e he
      rcases List.mem_cons.1 he with rfl | he
      · exact ⟨hp, a4, k, a5⟩
      · exact h3 e he

/-- Nothing fails in the loop over revisions that all have the tag. -/
theorem expireRevs_carriers (tag : String) (thr : Int) : ∀ (l : List Rev) (s : Repo), (∀ r ∈ l, tag ∈ r.tags) →
    ∃ s', expireRevs tag thr l s = (.ok (), s')
  | [], s, _ => ⟨s, rfl⟩
  | r :: l, s, h => by
    simp only [expireRevs]
    split
    · exact expireRevs_carriers tag thr l s (fun x hx => h x (by simp [hx]))
    · rw [if_neg (not_not.2 (h r (by simp)))]
      exact expireRevs_carriers tag thr l _ (fun x hx => h x (by simp [hx]))

theorem expirePhase1_ok (pd : String → Option Int) (now : String → Int) : ∀ (l : List (String × Int × List (String × Yaml))) (s : Repo),
    (∀ e ∈ l, PlainTag e.1 ∧ 0 < e.2.1 ∧ ∃ k : Nat, Dict.get? e.2.2 "keep" = some (.int k)) → (expirePhase1 pd now l s).1 = .ok ()
  | [], _, _ => rfl
  | (tag, d, spec) :: rest, s, h => by
    obtain ⟨hp, _, k, hk⟩ := h (tag, d, spec) (by simp)
    have ht : ∃ s', expireTag pd (now tag) tag d spec s = (.ok (), s') := by
      unfold expireTag
      rw [findRevisions_tag _ _ hp]
      dsimp only at hk ⊢
      rw [hk]
      dsimp only [keepOf]
      split
      · exact ⟨_, rfl⟩
      · refine expireRevs_carriers tag _ _ s (fun r hr => ?_)
        have : r ∈ s.history.filter (fun r => decide (tag ∈ r.tags)) := by
          unfold upTo at hr
          split at hr <;> exact List.mem_of_mem_take hr
        exact of_decide_eq_true (List.mem_filter.1 this).2
    obtain ⟨s', ht⟩ := ht
    simp only [expirePhase1, ht]
    exact expirePhase1_ok pd now rest s' (fun e he => h e (by simp [he]))

theorem next_ok {sch : Schedule} (hne : sch ≠ []) (hz : ∀ e ∈ sch, e.2.interval ≠ 0) (relative spread : Int) (s : Repo) (nowM now1 now2 : Int) :
    ∃ t tags, sch.next relative spread s nowM now1 now2 = .ok (t, tags) := by
  have hex : ∃ x, sch.nextIdeal relative spread = .ok x := by
    unfold Schedule.nextIdeal
    rw [show sch.any (fun e => decide (e.2.interval = 0)) = false by
      rw [List.any_eq_false]; intro e he; simpa using hz e he]
    simp only [Bool.false_eq_true, if_false]
    split
    · rename_i h
      simp only [List.min?_eq_none_iff, List.map_eq_nil_iff] at h
      exact absurd h hne
    · exact ⟨_, rfl⟩
  obtain ⟨⟨t, tags⟩, hi⟩ := hex
  unfold Schedule.next
  rw [hi]
  dsimp only
  split
  · split <;> exact ⟨_, _, rfl⟩
  · exact ⟨_, _, rfl⟩

theorem mem_intervals {o : SchedObj} {e : String × TagSpec} (h : e ∈ intervals o) :
    ∃ x ∈ o.tags, x.1 = e.1 ∧ x.2.1 = e.2.interval := by
  obtain ⟨x, hx, rfl⟩ := List.mem_map.1 h
  exact ⟨x, hx, rfl, rfl⟩

/-- **C124 (partial)** A sound definition of a schedule is accepted, and what becomes of it can be planned and expired at any time, for
every job and in every repository.  Missing: what is accepted as well, see `C124_false_accepted`. -/
theorem C124_sound_partial (y : Yaml) (h : Sound y) : ∃ o, configure y = .ok o ∧
    (∀ env name relative s nowM now1 now2, ∃ t tags, plan env name o relative s nowM now1 now2 = .ok (t, tags)) ∧
    ∀ pd now s, ∃ removed, (expire o pd now s).1 = .ok removed := by
  obtain ⟨m, rfl, hne, hm⟩ := h
  obtain ⟨l, h1, h2, h3⟩ := configureTags_ok m hm
  refine ⟨⟨m, l⟩, by simp only [configure, h1], ?_, ?_⟩
  · intro env name relative s nowM now1 now2
    have hne' : intervals ⟨m, l⟩ ≠ [] := by
      intro h
      have : l.length = 0 := by simpa [intervals] using congrArg List.length h
      exact hne (List.length_eq_zero_iff.1 (by omega))
    have hpos : ∀ e ∈ intervals ⟨m, l⟩, 0 < e.2.interval := by
      intro e he
      obtain ⟨x, hx, _, hi⟩ := mem_intervals he
      rw [← hi]
      exact (h3 x hx).2.1
    have hsp : ∃ sp, Spread.spread env name (intervals ⟨m, l⟩) = .ok sp := by
      unfold Spread.spread
      cases hq : ((intervals ⟨m, l⟩).map (fun e => e.2.interval)).max? with
      | none => rw [List.max?_eq_none_iff, List.map_eq_nil_iff] at hq; exact absurd hq hne'
      | some x =>
        rw [List.max?_eq_some_iff] at hq
        obtain ⟨e, he, hex⟩ := List.mem_map.1 hq.1
        have := hpos e he
        dsimp only
        rw [if_neg (by omega)]
        exact ⟨_, rfl⟩
    obtain ⟨sp, hsp⟩ := hsp
    unfold plan
    rw [hsp]
    exact next_ok hne' (fun e he => Int.ne_of_gt (hpos e he)) _ _ _ _ _ _
  · intro pd now s
    have := expirePhase1_ok pd now l s.scan h3
    unfold expire
    dsimp only
    generalize expirePhase1 pd now l s.scan = g at this
    obtain ⟨g1, g2⟩ := g
    cases g1 with
    | error e => cases this
    | ok u => exact ⟨_, rfl⟩

/-- **C124 (partial)** So a job with a sound schedule whose repository can be read goes on forever, whatever else fails, and never
fails in the expiry. -/
theorem C124_goes_on_partial (env : Spread.Env) (name : String) (y : Yaml) (h : Sound y) (o : SchedObj) (ho : configure y = .ok o)
    (ps : List Pass) (hp : ∀ p ∈ ps, Follows env name o p) :
    (runForever (some .init) ps).length = ps.length ∧ ∀ p ∈ ps, p.failing .expire = false := by
  obtain ⟨o', h1, h2, h3⟩ := C124_sound_partial y h
  rw [ho] at h1
  cases h1
  refine ⟨C62_keeps_running_partial ps (fun p hpp => ?_), fun p hpp => ?_⟩
  · obtain ⟨relative, s, nowM, now1, now2, hpl⟩ := (hp p hpp).planned
    obtain ⟨t, tags, ht⟩ := h2 env name relative s nowM now1 now2
    exact ⟨(hp p hpp).connected, (t, tags), hpl.trans ht⟩
  · obtain ⟨pd, now, s, hex⟩ := (hp p hpp).expires
    obtain ⟨removed, hr⟩ := h3 pd now s
    cases hf : p.failing .expire with
    | false => rfl
    | true => exact absurd hr (hex.1 hf removed)

/-! ### What is accepted as well -/

/-- **C124 is false of the code**: with a schedule that has no tags, or a tag with an interval of zero, or only negative intervals,
a job never does anything: its loop ends when it plans its first run. -/
theorem C124_false_never_runs (env : Spread.Env) (name : String) (o : SchedObj)
    (h : o.tags = [] ∨ (∃ e ∈ o.tags, e.2.1 = 0) ∨ ∀ e ∈ o.tags, e.2.1 < 0) (p : Pass) (ps : List Pass) (hp : Follows env name o p) :
    runForever (some .init) (p :: ps) = [[.connect]] := by
  have hpl : ∃ e, p.planned = .error e := by
    obtain ⟨relative, s, nowM, now1, now2, hpl⟩ := hp.planned
    rw [hpl]
    unfold plan
    have hcase : (∃ e, Spread.spread env name (intervals o) = .error e) ∨ ∃ e ∈ o.tags, e.2.1 = 0 := by
      rcases h with h | h | h
      · refine .inl ⟨.value, ?_⟩
        simp [Spread.spread, intervals, h]
      · exact .inr h
      · refine .inl ⟨.value, ?_⟩
        unfold Spread.spread
        cases hq : ((intervals o).map (fun e => e.2.interval)).max? with
        | none => rfl
        | some x =>
          rw [List.max?_eq_some_iff] at hq
          obtain ⟨e, he, hex⟩ := List.mem_map.1 hq.1
          obtain ⟨x', hx, _, hi⟩ := mem_intervals he
          have := h x' hx
          dsimp only
          rw [if_pos (by omega)]
    rcases hcase with ⟨e, he⟩ | ⟨e, he, hz⟩
    · rw [he]; exact ⟨_, rfl⟩
    · cases Spread.spread env name (intervals o) with
      | error x => exact ⟨_, rfl⟩
      | ok sp =>
        refine ⟨.unexpected, ?_⟩
        unfold Schedule.next Schedule.nextIdeal
        rw [show (intervals o).any (fun e => decide (e.2.interval = 0)) = true by
          rw [List.any_eq_true]
          exact ⟨_, List.mem_map.2 ⟨e, he, rfl⟩, by simpa using hz⟩]
        rfl
  obtain ⟨e, hpl⟩ := hpl
  have hpass : pass .init p = ([.connect], none) := by
    unfold pass
    rw [if_neg (by simp [hp.connected]), hpl]
  simp only [runForever, hpass]
  cases ps <;> rfl

/-- The name of the tag is read as an expression: this one is not one. -/
theorem unclosed_tag (c : Ctx) : findRevisions c ("tag:" ++ "weekly (sunday") = .error .assertion := by
  have ht : tokenize ("tag:" ++ "weekly (sunday") = ["tag:weekly", "(", "sunday"] := by decide +kernel
  unfold findRevisions
  rw [ht]
  simp only [List.map_cons, List.map_nil]
  rw [evalToks, if_neg (by simp)]
  split
  · rename_i a b heq; simp [splitFirst] at heq
  · split
    · rename_i a b heq; simp [splitFirst] at heq
    · simp [splitFirst]

theorem expirePhase1_fails (pd : String → Option Int) (now : String → Int) : ∀ (l : List (String × Int × List (String × Yaml))) (s : Repo),
    (∃ e ∈ l, Dict.get? e.2.2 "keep" = none ∨ e.1 = "weekly (sunday") → ∃ x, (expirePhase1 pd now l s).1 = .error x
  | [], _, h => by simp at h
  | (tag, d, spec) :: rest, s, h => by
    simp only [expirePhase1]
    cases hg : expireTag pd (now tag) tag d spec s with
    | mk g1 g2 =>
    cases g1 with
    | error x => exact ⟨x, rfl⟩
    | ok u =>
      refine expirePhase1_fails pd now rest g2 ?_
      obtain ⟨e, he, hk⟩ := h
      rcases List.mem_cons.1 he with rfl | he
      · exfalso
        unfold expireTag at hg
        rcases hk with hk | hk
        · rw [show Dict.get? spec "keep" = none from hk] at hg
          cases hf : findRevisions ⟨s.history, pd⟩ ("tag:" ++ tag) with
          | error e => rw [hf] at hg; cases hg
          | ok revs => rw [hf] at hg; cases hg
        · rw [show tag = "weekly (sunday" from hk, unclosed_tag] at hg
          cases hg
      · exact ⟨e, he, hk⟩

/-- **C124 is false of the code**: with a schedule in which a tag does not say how many revisions to keep, or has a name that is not read as a name
(`weekly (sunday`), every run of the job makes a backup and fails in the expiry: no changes are pushed, no garbage is collected, the callback is not called, and it is repeated as
a failed run. -/
theorem C124_false_never_expires (env : Spread.Env) (name : String) (o : SchedObj)
    (h : ∃ e ∈ o.tags, Dict.get? e.2.2 "keep" = none ∨ e.1 = "weekly (sunday") (p : Pass) (hp : Follows env name o p) (t : Int) (tags : Finset String) (hpl : p.planned = .ok (t, tags))
    (hown : p.triggered = true ∨ p.skip = false) (hok : ∀ a, a ≠ .expire → p.failing a = false) (j : Retry) :
    (pass j p).1.filter visible = [.backup tags, .pull, .expire] ∧ (pass j p).2 = some (j.after false) := by
  have hf : p.failing .expire = true := by
    obtain ⟨pd, now, s, hex⟩ := hp.expires
    refine hex.2 (fun l hl => ?_)
    obtain ⟨x, hx⟩ := expirePhase1_fails pd now o.tags s.scan h
    unfold expire at hl
    generalize expirePhase1 pd now o.tags s.scan = g at hx hl
    obtain ⟨g1, g2⟩ := g
    dsimp only at hx
    subst hx
    cases hl
  have hsteps : runSteps p.failing (backupSteps p tags) = ([.acquire p.fast, .clean, .backup tags, .scan, .cleanAfter, .pull, .expire], false) := by
    simp [backupSteps, runSteps, hf, hok]
  unfold pass
  rw [if_neg (by simp [hp.connected]), hpl]
  dsimp only
  have htry : (tryBlock p (j.deadline p t) tags).1.filter visible = [.backup tags, .pull, .expire] ∧
      (tryBlock p (j.deadline p t) tags).2 = false := by
    unfold tryBlock
    rw [hsteps]
    split
    · exact ⟨rfl, rfl⟩
    · rename_i ht
      rcases hown with h' | h'
      · exact absurd h' ht
      · rw [if_neg (by simp [h'])]
        exact ⟨rfl, rfl⟩
  refine ⟨?_, by rw [htry.2]⟩
  rw [List.filter_append, htry.1]
  rfl

/-- A configuration file with one schedule. -/
def exFile (spec : List (String × Yaml)) : Yaml := .map [
  ("global", .map [("base-dir", .str "/srv/backy")]), ("schedules", .map [("default", .map spec)]),
  ("jobs", .map [("test01", .map [("schedule", .str "default"), ("source", .map [("type", .str "file"), ("filename", .str "/image")])])])]

/-- **C124 is false of the code**: the daemon accepts files with such schedules, and the jobs that use them. -/
theorem C124_false_accepted :
    (∃ st o, readConfig (exFile [("daily", .map [("interval", .str "0d"), ("keep", .int 7)])]) = .ok st ∧ st.schedules = [("default", o)] ∧
      ∃ e ∈ o.tags, e.2.1 = 0) ∧
    (∃ st o, readConfig (exFile []) = .ok st ∧ st.schedules = [("default", o)] ∧ o.tags = []) ∧
    (∃ st o, readConfig (exFile [("daily", .map [("interval", .str "1d")])]) = .ok st ∧ st.schedules = [("default", o)] ∧
      ∃ e ∈ o.tags, Dict.get? e.2.2 "keep" = none) ∧
    (∃ st o, readConfig (exFile [("weekly (sunday", .map [("interval", .str "1d"), ("keep", .int 4)])]) = .ok st ∧
      st.schedules = [("default", o)] ∧ ∃ e ∈ o.tags, e.1 = "weekly (sunday") := by
  have haddr : addrsOf (.str "::1, 127.0.0.1") = .ok ["::1", "127.0.0.1"] := by decide +kernel
  have key : ∀ spec tags, configureTags spec = .ok tags → ∃ st, readConfig (exFile spec) = .ok st ∧ st.schedules = [("default", ⟨spec, tags⟩)] := by
    intro spec tags h
    refine ⟨⟨1, "/srv/backy", none, .map [], ["::1", "127.0.0.1"], 6023, .map [], .map [("url", .str (urlOf "::1" 6023))], [("default", ⟨spec, tags⟩)]⟩,
      readConfig_ok.2 ⟨_, _, _, _, rfl, .inl rfl, .inr ⟨rfl, rfl⟩, rfl, rfl, rfl, rfl, ?_, rfl, rfl, ?_, rfl, ?_⟩, rfl⟩
    · exact haddr
    · exact (cliDefaultOf_ok (by simp)).2 (.inr ⟨show (6023 : Int) ≠ 0 by decide, "::1", _, _, rfl, rfl, rfl⟩)
    · simp [configureAll, configure, h]
  have h0 : parseDuration "0d" = .ok 0 := by decide +kernel
  have h1 : parseDuration "1d" = .ok (24 * 60 * 60 * 1000000) := by decide +kernel
  refine ⟨?_, ?_, ?_, ?_⟩
  · obtain ⟨st, a, b⟩ := key [("daily", .map [("interval", .str "0d"), ("keep", .int 7)])]
      [("daily", 0, [("interval", .str "0d"), ("keep", .int 7)])] (by simp [configureTags, specOf, intervalOf, Dict.get?, h0])
    exact ⟨st, _, a, b, _, List.mem_singleton.2 rfl, rfl⟩
  · obtain ⟨st, a, b⟩ := key [] [] rfl
    exact ⟨st, _, a, b, rfl⟩
  · obtain ⟨st, a, b⟩ := key [("daily", .map [("interval", .str "1d")])]
      [("daily", 24 * 60 * 60 * 1000000, [("interval", .str "1d")])] (by simp [configureTags, specOf, intervalOf, Dict.get?, h1])
    exact ⟨st, _, a, b, _, List.mem_singleton.2 rfl, rfl⟩
  · obtain ⟨st, a, b⟩ := key [("weekly (sunday", .map [("interval", .str "1d"), ("keep", .int 4)])]
      [("weekly (sunday", 24 * 60 * 60 * 1000000, [("interval", .str "1d"), ("keep", .int 4)])]
      (by simp [configureTags, specOf, intervalOf, Dict.get?, h1])
    exact ⟨st, _, a, b, _, List.mem_singleton.2 rfl, rfl⟩

/-! ### For a whole number to keep this is the expiry of `Model/Schedule.lean` -/

/-- The schedule of `Model/Schedule.lean` that is meant. -/
def meant (o : SchedObj) (keep : String → Nat) : Schedule := o.tags.map (fun e => (e.1, ⟨e.2.1, keep e.1⟩))

theorem upTo_keep (k : Nat) (l : List Rev) : upTo k l = dropNewest k l := by
  unfold upTo dropNewest
  by_cases h : k = 0
  · subst h; rfl
  · rw [if_neg (by omega), if_neg h]; rfl

theorem expirePhase1_meant (pd : String → Option Int) (now : String → Int) (keep : String → Nat) :
    ∀ (l : List (String × Int × List (String × Yaml))) (s : Repo), (∀ e ∈ l, Dict.get? e.2.2 "keep" = some (.int (keep e.1))) →
      expirePhase1 pd now l s = Repo.expirePhase1 pd now (l.map (fun e => (e.1, ⟨e.2.1, keep e.1⟩))) s
  | [], _, _ => rfl
  | (tag, d, spec) :: rest, s, h => by
    have ht : expireTag pd (now tag) tag d spec s = Repo.expireTag pd (now tag) tag ⟨d, keep tag⟩ s := by
      unfold expireTag Repo.expireTag
      rw [show Dict.get? spec "keep" = some (.int (keep tag)) from h (tag, d, spec) (by simp)]
      dsimp only [keepOf]
      generalize findRevisions ⟨s.history, pd⟩ ("tag:" ++ tag) = g
      cases g with
      | error e => rfl
      | ok revs =>
        dsimp only
        by_cases hl : revs.length < keep tag
        · rw [if_pos (by omega), if_pos hl]
        · rw [if_neg (by omega), if_neg hl, upTo_keep]
    simp only [expirePhase1, List.map_cons, Repo.expirePhase1, ht]
    generalize Repo.expireTag pd (now tag) tag ⟨d, keep tag⟩ s = g
    obtain ⟨g1, g2⟩ := g
    cases g1 with
    | error e => rfl
    | ok u => exact expirePhase1_meant pd now keep rest g2 (fun e he => h e (by simp [he]))

/-- With whole numbers of revisions to keep the expiry is that of `Model/Schedule.lean`, of which C25 and others speak. -/
theorem expire_meant (o : SchedObj) (keep : String → Nat) (h : ∀ e ∈ o.tags, Dict.get? e.2.2 "keep" = some (.int (keep e.1)))
    (pd : String → Option Int) (now : String → Int) (s : Repo) : expire o pd now s = (meant o keep).expire pd now s := by
  have hk : (intervals o).keys = (meant o keep).keys := by simp [intervals, meant, Dict.keys]
  have h2 : ∀ s, expirePhase2 (intervals o) s = expirePhase2 (meant o keep) s := by
    intro s
    have he : ∀ tags, expiredTags (intervals o) tags = expiredTags (meant o keep) tags := by
      intro tags; ext x; simp [expiredTags, hk]
    simp only [expirePhase2, he]
  unfold expire Schedule.expire
  rw [expirePhase1_meant pd now keep o.tags s.scan h]
  simp only [h2]
  rfl

/-! ### Examples -/

theorem plain_daily : PlainTag "daily" :=
  ⟨by simp [NoSep], by simp, by simp⟩

theorem plain_weekly : PlainTag "weekly" :=
  ⟨by simp [NoSep], by simp, by simp⟩

/-- The schedule of the manual is sound. -/
theorem exSound : Sound (.map exSched.config) := by
  refine ⟨_, rfl, by simp [exSched], ?_⟩
  intro e he
  simp only [exSched, List.mem_cons, List.not_mem_nil, or_false] at he
  rcases he with rfl | rfl
  · exact ⟨plain_daily, _, "1d", 24 * 60 * 60 * 1000000, rfl, rfl, by decide +kernel, by decide, 7, rfl⟩
  · exact ⟨plain_weekly, _, "1w", 7 * 24 * 60 * 60 * 1000000, rfl, rfl, by decide +kernel, by decide, 4, rfl⟩

/-- Whether an outcome is an error. -/
def isErr (x : Except PyErr (List Rev)) : Bool := match x with | .ok _ => false | .error _ => true

/-- A repository without revisions. -/
def exRepo : Repo := ⟨[], [], []⟩

/-- A pass of a job with a schedule, triggered, in which the actions `bad` fail and expiry if it does. -/
def exPass (o : SchedObj) (bad : List Act) : Pass :=
  { connected := true, planned := plan Spread.exEnv "test01" o 0 exRepo 0 0 0, now := 0, triggered := true, skip := false, fast := false
    failing := fun a => if a = .expire then isErr (expire o (fun _ => none) (fun _ => 0) exRepo).1 else decide (a ∈ bad) }

theorem exPass_follows (o : SchedObj) (bad : List Act) : Follows Spread.exEnv "test01" o (exPass o bad) := by
  refine ⟨rfl, ⟨_, _, _, _, _, rfl⟩, fun _ => none, fun _ => 0, exRepo, ?_⟩
  show (if (Act.expire = .expire) then isErr (expire o (fun _ => none) (fun _ => 0) exRepo).1 else decide (Act.expire ∈ bad)) = true ↔ _
  rw [if_pos rfl]
  cases (expire o (fun _ => none) (fun _ => 0) exRepo).1 with
  | ok l => simp [isErr]
  | error e => simp [isErr]

/-- With the schedule of the manual the job goes on although no backup succeeds. -/
example (bad : List Act) : (runForever (some .init) [exPass exSched bad, exPass exSched bad, exPass exSched []]).length = 3 := by
  refine (C124_goes_on_partial Spread.exEnv "test01" _ exSound exSched (by
    have := exSched_ok
    simp only [configureAll] at this
    cases hc : configure (.map exSched.config) with
    | error e => rw [show (Yaml.map [("daily", .map [("interval", .str "1d"), ("keep", .int 7)]), ("weekly", .map [("interval", .str "1w"), ("keep", .int 4)])]) =
        .map exSched.config from rfl, hc] at this; cases this
    | ok o =>
      rw [show (Yaml.map [("daily", .map [("interval", .str "1d"), ("keep", .int 7)]), ("weekly", .map [("interval", .str "1w"), ("keep", .int 4)])]) =
        .map exSched.config from rfl, hc] at this
      simpa using this) _ ?_).1
  intro p hp
  simp only [List.mem_cons, List.not_mem_nil, or_false] at hp
  rcases hp with rfl | rfl | rfl <;> exact exPass_follows _ _

/-- With an interval of zero it ends at once. -/
example : runForever (some .init) [exPass ⟨[], [("daily", 0, [("keep", .int 7)])]⟩ [], exPass ⟨[], []⟩ []] = [[.connect]] :=
  C124_false_never_runs Spread.exEnv "test01" _ (.inr (.inl ⟨_, List.mem_singleton.2 rfl, rfl⟩)) _ _ (exPass_follows _ _)

/-- Without `keep` the run fails after the backup. -/
example (j : Retry) (o : SchedObj) (ho : o = ⟨[], [("daily", 24 * 60 * 60 * 1000000, [])]⟩) : ∃ tags,
    (pass j (exPass o [])).1.filter visible = [.backup tags, .pull, .expire] := by
  obtain ⟨t, tags, h⟩ := next_ok (sch := intervals o) (by simp [ho, intervals]) (by simp [ho, intervals]) 0
    (Spread.exEnv.randint 0 0 0) exRepo 0 0 0
  have hpl : ∃ t tags, plan Spread.exEnv "test01" o 0 exRepo 0 0 0 = .ok (t, tags) := by
    unfold plan
    have : ∃ sp, Spread.spread Spread.exEnv "test01" (intervals o) = .ok sp := by
      subst ho
      exact ⟨_, rfl⟩
    obtain ⟨sp, hsp⟩ := this
    rw [hsp]
    exact next_ok (by simp [ho, intervals]) (by simp [ho, intervals]) 0 sp exRepo 0 0 0
  obtain ⟨t, tags, hpl⟩ := hpl
  refine ⟨tags, (C124_false_never_expires Spread.exEnv "test01" o (by subst ho; exact ⟨_, List.mem_singleton.2 rfl, .inl rfl⟩) _
    (exPass_follows o []) t tags hpl (.inl rfl) (fun a ha => ?_) j).1⟩
  show (if a = .expire then _ else _) = false
  rw [if_neg ha]
  rfl

/-- A complete local revision with a manual tag. -/
def exManual (uuid : String) (ts : Int) : Rev :=
  { uuid, ts, stats := [("duration", 1)], trust := .trusted, tags := {"manual:keep"}, origTags := ∅, server := "" }

/-- Was this a KeyError? -/
def isKeyError (r : Except PyErr (List Rev)) : Bool :=
  match r with
  | .error .key => true
  | _ => false

/-- **C124 is false of the code**: with a name that selects other revisions as well, the expiry fails with a KeyError at the first of them
that is old enough: here `tag:daily, local` is every local revision. -/
theorem C124_false_other_revisions :
    isKeyError (expire ⟨[], [("daily, local", 10, [("keep", .int 1)])]⟩ (fun _ => none) (fun _ => 100)
      ⟨[("a", ⟨false, exManual "a" 1⟩), ("b", ⟨false, exManual "b" 2⟩)], [], []⟩).1 = true := by
  decide +kernel

end Verif.Accepted
