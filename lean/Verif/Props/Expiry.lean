import Verif.Proofs.Expire
import Verif.Props.Schedule
/-!
# Properties C26, C27, C28, C29: expiry

`onDisk files u` is the revision stored in the metadata file of `u`.  `s.scan.history` is the list of all
stored revisions, oldest first (C33).  `Spec/Expiry.lean` defines which tags are due.
-/
set_option linter.dupNamespace false
namespace Verif.Repo
open Verif Verif.Repo.Spec
open scoped Classical

/-- **C27/C28** (main) After expiry exactly these revisions are stored: every revision stored before, with
nothing changed but its tags, which are now the manual tags and the tags of the schedule that
are not due; except the local revisions for which no tag remains.  The revisions without
remaining tags are returned. -/
theorem C27_expiry_exact (sch : Schedule) (hs : GoodSchedule sch) (now : String → Int)
    (pd : String → Option Int) (s : Repo) (hn : Named s.files) (hlog : s.log = []) :
    (∀ u r', onDisk (sch.expire pd now s).2.files u = some r' ↔
      ∃ r, onDisk s.files u = some r ∧
        r' = { r with tags := keptTags sch now s.scan.history r } ∧
        ¬ (keptTags sch now s.scan.history r = ∅ ∧ r.server = "")) ∧
    (∃ removed, (sch.expire pd now s).1 = .ok removed ∧ ∀ u,
      u ∈ removed.map Rev.uuid ↔
        ∃ r, onDisk s.files u = some r ∧ keptTags sch now s.scan.history r = ∅) ∧
    Named (sch.expire pd now s).2.files := by
  obtain ⟨s', K, h1, h2, h3⟩ := expire_ok hs now pd s hn hlog
  rw [h1]
  have hu : ∀ u r, onDisk s.files u = some r → r.uuid = u := fun u r h =>
    (hn.named u _ (Dict.mem_of_get? (onDisk_eq_some.1 h)) rfl).symm
  refine ⟨fun u r' => ?_, ⟨_, rfl, fun u => ?_⟩, h2.mid.named⟩
  · rw [h2.mid.disk, h2.mid.hist]
    simp only [List.mem_map, List.mem_filter]
    constructor
    · rintro ⟨⟨r, ⟨hr, hk⟩, rfl⟩, hru⟩
      have hru' : r.uuid = u := hru
      refine ⟨r, ?_, rfl, ?_⟩
      · rw [← hru']; exact (Repo.scan_mem hn r).1 hr
      · rw [h3 r hr, decide_eq_true_eq] at hk; exact hk
    · rintro ⟨r, hr, rfl, hk⟩
      have hru := hu u r hr
      have hrH := (Repo.scan_mem hn r).2 (by rw [hru]; exact hr)
      exact ⟨⟨r, ⟨hrH, by rw [h3 r hrH, decide_eq_true_eq]; exact hk⟩, rfl⟩, hru⟩
  · simp only [List.map_map, List.mem_map, List.mem_filter, decide_eq_true_eq]
    constructor
    · rintro ⟨r, ⟨hr, hk⟩, rfl⟩
      exact ⟨r, (Repo.scan_mem hn r).1 hr, hk⟩
    · rintro ⟨r, hr, hk⟩
      have hru := hu u r hr
      exact ⟨r, ⟨(Repo.scan_mem hn r).2 (by rw [hru]; exact hr), hk⟩, hru⟩

/-- **C26** Expiry keeps a schedule tag on each of the `keep` newest revisions carrying it and on each
revision that is not older than `keep * interval`; these revisions stay stored. -/
theorem C26_keeps_newest_and_young (sch : Schedule) (hs : GoodSchedule sch) (now : String → Int)
    (pd : String → Option Int) (s : Repo) (hn : Named s.files) (hlog : s.log = [])
    (tag : String) (a : TagSpec) (ha : (tag, a) ∈ sch) (r : Rev) (hr : onDisk s.files r.uuid = some r)
    (ht : tag ∈ r.tags)
    (hkeep : AmongNewest s.scan.history tag a.keep r ∨ now tag - a.keep * a.interval ≤ r.ts) :
    ∃ r', onDisk (sch.expire pd now s).2.files r.uuid = some r' ∧ tag ∈ r'.tags := by
  have hk : tag ∈ keptTags sch now s.scan.history r := by
    rw [mem_keptTags]
    refine ⟨ht, .inr (List.mem_map.2 ⟨_, ha, rfl⟩), ?_⟩
    rintro ⟨a', ha', h1, h2⟩
    have : a' = a := by
      have e1 := Dict.get?_of_mem hs.nodup ha
      have e2 := Dict.get?_of_mem hs.nodup ha'
      rw [e1] at e2; cases e2; rfl
    subst this
    rcases hkeep with h | h
    · exact h1 h
    · omega
  refine ⟨_, (((C27_expiry_exact sch hs now pd s hn hlog).1) r.uuid _).2 ⟨r, hr, rfl, ?_⟩, hk⟩
  rintro ⟨h0, _⟩
  rw [h0] at hk; simp at hk

/-- **C27** Which tags a stored revision has after expiry: never new ones; a tag of the schedule stays
exactly if the revision is among its `keep` newest carriers or young enough; a tag unknown to
the schedule stays exactly if it is a manual tag.  All other attributes are unchanged. -/
theorem C27_expiry_tags (sch : Schedule) (hs : GoodSchedule sch) (now : String → Int)
    (pd : String → Option Int) (s : Repo) (hn : Named s.files) (hlog : s.log = [])
    (r r' : Rev) (hr : onDisk s.files r.uuid = some r)
    (hr' : onDisk (sch.expire pd now s).2.files r.uuid = some r') :
    (r'.uuid = r.uuid ∧ r'.ts = r.ts ∧ r'.stats = r.stats ∧ r'.trust = r.trust ∧
      r'.origTags = r.origTags ∧ r'.server = r.server) ∧
    r'.tags ⊆ r.tags ∧
    (∀ tag a, (tag, a) ∈ sch → tag ∈ r.tags → (tag ∈ r'.tags ↔
      AmongNewest s.scan.history tag a.keep r ∨ now tag - a.keep * a.interval ≤ r.ts)) ∧
    (∀ tag, tag ∉ sch.keys → tag ∈ r.tags → (tag ∈ r'.tags ↔ startsWith tag "manual:" = true)) := by
  obtain ⟨r0, h1, rfl, h2⟩ := ((C27_expiry_exact sch hs now pd s hn hlog).1 r.uuid r').1 hr'
  rw [hr] at h1
  cases h1
  refine ⟨⟨rfl, rfl, rfl, rfl, rfl, rfl⟩, keptTags_sub r, ?_, ?_⟩
  · intro tag a ha ht
    show tag ∈ keptTags sch now s.scan.history r ↔ _
    rw [mem_keptTags]
    constructor
    · rintro ⟨_, _, hd⟩
      by_contra hc
      rw [not_or] at hc
      exact hd ⟨a, ha, hc.1, by omega⟩
    · intro hk
      refine ⟨ht, .inr (List.mem_map.2 ⟨_, ha, rfl⟩), ?_⟩
      rintro ⟨a', ha', h1, h2⟩
      have : a' = a := by
        have e1 := Dict.get?_of_mem hs.nodup ha
        have e2 := Dict.get?_of_mem hs.nodup ha'
        rw [e1] at e2; cases e2; rfl
      subst this
      rcases hk with h | h
      · exact h1 h
      · omega
  · intro tag hk ht
    show tag ∈ keptTags sch now s.scan.history r ↔ isManual tag = true
    rw [mem_keptTags]
    constructor
    · rintro ⟨_, h | h, _⟩
      · exact h
      · exact absurd h hk
    · intro h
      refine ⟨ht, .inl h, ?_⟩
      rintro ⟨a, ha, _⟩
      exact hk (List.mem_map.2 ⟨_, ha, rfl⟩)

/-- **C28** A local revision is gone after expiry exactly if no tag remains; a revision of another server
is never gone, and if no tag remains it is stored with no tags; no revision appears. -/
theorem C28_gone_iff_untagged (sch : Schedule) (hs : GoodSchedule sch) (now : String → Int)
    (pd : String → Option Int) (s : Repo) (hn : Named s.files) (hlog : s.log = []) (u : String) :
    (onDisk s.files u = none → onDisk (sch.expire pd now s).2.files u = none) ∧
    ∀ r, onDisk s.files u = some r →
      (r.server = "" → (onDisk (sch.expire pd now s).2.files u = none ↔
        ∀ t ∈ r.tags, t ∉ keptTags sch now s.scan.history r)) ∧
      (r.server ≠ "" → ∃ r', onDisk (sch.expire pd now s).2.files u = some r' ∧
        r'.tags = keptTags sch now s.scan.history r ∧ r'.server = r.server) := by
  have hmain := (C27_expiry_exact sch hs now pd s hn hlog).1
  constructor
  · intro h
    cases he : onDisk (sch.expire pd now s).2.files u with
    | none => rfl
    | some r' =>
      obtain ⟨r, hr, _⟩ := (hmain u r').1 he
      rw [h] at hr; cases hr
  · intro r hr
    constructor
    · intro hsv
      constructor
      · intro hnone t ht hk
        have := (hmain u _).2 ⟨r, hr, rfl, fun hc => by rw [hc.1] at hk; simp at hk⟩
        rw [hnone] at this; cases this
      · intro hall
        cases he : onDisk (sch.expire pd now s).2.files u with
        | none => rfl
        | some r' =>
          obtain ⟨r0, hr0, _, hk⟩ := (hmain u r').1 he
          rw [hr] at hr0; cases hr0
          refine absurd ⟨?_, hsv⟩ hk
          rw [Finset.eq_empty_iff_forall_notMem]
          exact fun t ht => hall t (keptTags_sub r ht) ht
    · intro hsv
      exact ⟨_, (hmain u _).2 ⟨r, hr, rfl, fun hc => hsv hc.2⟩, rfl, rfl⟩

/-! ### C29 -/

theorem take_filter_of_all {α : Type} (P : α → Bool) : ∀ (l : List α) (k : Nat),
    (∀ x ∈ l.take k, P x = true) → (l.filter P).take k = l.take k
  | [], k, _ => by simp
  | a :: l, 0, _ => by simp
  | a :: l, k + 1, h => by
    have ha := h a (by simp)
    rw [List.filter_cons_of_pos ha, List.take_succ_cons, List.take_succ_cons,
      take_filter_of_all P l k (fun x hx => h x (by simp [hx]))]

theorem due_mono {sch : Schedule} {now1 now2 : String → Int} (hle : ∀ t, now1 t ≤ now2 t) {H : List Rev}
    {t : String} {r : Rev} (h : Due sch now1 H t r) : Due sch now2 H t r := by
  obtain ⟨a, h1, h2, h3⟩ := h
  exact ⟨a, h1, h2, by have := hle t; omega⟩

/-- In an intermediate state of an expiry at `now1`, an expiry at a later time keeps for each revision the
same tags as if the first one had not happened. -/
theorem kept_of_mid {sch : Schedule} (hs : GoodSchedule sch) {now1 now2 : String → Int}
    (hle : ∀ t, now1 t ≤ now2 t) {H : List Rev} (hH : (H.map Rev.uuid).Nodup)
    {T : Rev → Finset String} {K : Rev → Bool}
    (hsub : ∀ r ∈ H, keptTags sch now1 H r ⊆ T r ∧ T r ⊆ r.tags)
    (hgone : ∀ r ∈ H, K r = false → keptTags sch now1 H r = ∅ ∧ r.server = "")
    {r : Rev} (hr : r ∈ H) (hK : K r = true) :
    keptTags sch now2 ((H.filter K).map (fun r => r.withTags (T r))) (r.withTags (T r)) =
      keptTags sch now2 H r := by
  have hinj : ∀ x ∈ H, x.withTags (T x) = r.withTags (T r) → x = r := by
    intro x hx he
    have : (x.withTags (T x)).uuid = (r.withTags (T r)).uuid := by rw [he]
    exact eq_of_uuid hH hx hr this
  -- the newest carriers are unaffected
  have hnew : ∀ t a, (t, a) ∈ sch → t ∈ T r →
      (AmongNewest ((H.filter K).map (fun r => r.withTags (T r))) t a.keep (r.withTags (T r)) ↔
        AmongNewest H t a.keep r) := by
    intro t a ha ht
    unfold AmongNewest
    have hc : carriers ((H.filter K).map (fun r => r.withTags (T r))) t =
        ((carriers H t).filter (fun x => K x && decide (t ∈ T x))).map (fun r => r.withTags (T r)) := by
      unfold carriers
      rw [List.filter_map, List.filter_filter, List.filter_filter]
      congr 1
      apply List.filter_congr
      intro x hx
      have := (hsub x hx).2
      simp only [Function.comp, Rev.withTags]
      by_cases h1 : t ∈ T x
      · simp [h1, this h1]
      · simp [h1]
    rw [hc, ← List.map_reverse, ← List.filter_reverse, ← List.map_take, take_filter_of_all]
    · rw [List.mem_map]
      constructor
      · rintro ⟨x, hx, he⟩
        have hxH : x ∈ H := List.mem_of_mem_filter (List.mem_reverse.1 (List.mem_of_mem_take hx))
        rw [hinj x hxH he] at hx; exact hx
      · intro h
        exact ⟨r, h, rfl⟩
    · intro x hx
      have hxc := List.mem_reverse.1 (List.mem_of_mem_take hx)
      simp only [carriers, List.mem_filter, decide_eq_true_eq] at hxc
      have hkept : t ∈ keptTags sch now1 H x := by
        rw [mem_keptTags]
        refine ⟨hxc.2, .inr (List.mem_map.2 ⟨_, ha, rfl⟩), ?_⟩
        rintro ⟨a', ha', h1, h2⟩
        have : a' = a := by
          have e1 := Dict.get?_of_mem hs.nodup ha
          have e2 := Dict.get?_of_mem hs.nodup ha'
          rw [e1] at e2; cases e2; rfl
        subst this
        exact h1 hx
      have hKx : K x = true := by
        cases hk : K x with
        | true => rfl
        | false =>
          rw [(hgone x hxc.1 hk).1] at hkept; simp at hkept
      simp [hKx, (hsub x hxc.1).1 hkept]
  have hdue : ∀ t, t ∈ T r → (Due sch now2 ((H.filter K).map (fun r => r.withTags (T r))) t (r.withTags (T r)) ↔
      Due sch now2 H t r) := by
    intro t ht
    unfold Due
    constructor
    · rintro ⟨a, h1, h2, h3⟩
      exact ⟨a, h1, fun hc => h2 ((hnew t a h1 ht).2 hc), h3⟩
    · rintro ⟨a, h1, h2, h3⟩
      exact ⟨a, h1, fun hc => h2 ((hnew t a h1 ht).1 hc), h3⟩
  ext t
  rw [mem_keptTags, mem_keptTags]
  constructor
  · rintro ⟨h1, h2, h3⟩
    have h1' : t ∈ T r := h1
    exact ⟨(hsub r hr).2 h1', h2, fun hc => h3 ((hdue t h1').2 hc)⟩
  · rintro ⟨h1, h2, h3⟩
    have h1' : t ∈ T r := by
      apply (hsub r hr).1
      rw [mem_keptTags]
      exact ⟨h1, h2, fun hc => h3 (due_mono hle hc)⟩
    exact ⟨h1', h2, fun hc => h3 ((hdue t h1').1 hc)⟩

/-- **C29** Let an expiry that started at `now1` be interrupted after any of its file operations (`files'` is
one of the states it went through, or the state before it), let the directory be listed in any
order afterwards, and let expiry be run again at any later time `now2`.  Then exactly the same
revisions with the same metadata are stored as if the expiry at `now2` had been the only one.
(No two revisions have the same time.) -/
theorem C29_restartable (sch : Schedule) (hs : GoodSchedule sch) (now1 now2 : String → Int)
    (hle : ∀ t, now1 t ≤ now2 t) (pd : String → Option Int) (s : Repo) (hn : Named s.files)
    (hlog : s.log = [])
    (hdist : ∀ a ∈ s.scan.history, ∀ b ∈ s.scan.history, a.ts = b.ts → a = b)
    (files' : Dict String RevFile)
    (hmid : files' ∈ (sch.expire pd now1 s).2.log ∨ files' = s.files)
    (s' : Repo) (hperm : s'.files.Perm files') (hlog' : s'.log = []) (u : String) :
    onDisk (sch.expire pd now2 s').2.files u = onDisk (sch.expire pd now2 s).2.files u := by
  have hH := s.scan_nodup
  -- the intermediate state
  obtain ⟨h, T, K, hM⟩ : ∃ h T K, Mid s.scan.history (keptTags sch now1 s.scan.history) files' h T K := by
    rcases hmid with hm | rfl
    · obtain ⟨s1, K, h1, h2, _⟩ := expire_ok hs now1 pd s hn hlog
      rw [h1] at hm
      exact h2.log _ hm
    · refine ⟨s.scan.history, fun r => r.tags, fun _ => true, hn, ?_, ?_, ?_, by simp⟩
      · rw [List.filter_eq_self.2 (by simp)]
        exact (List.map_id _).symm
      · intro u r'
        constructor
        · intro h
          have hu : r'.uuid = u :=
            (hn.named u _ (Dict.mem_of_get? (onDisk_eq_some.1 h)) rfl).symm
          exact ⟨(Repo.scan_mem hn r').2 (by rw [hu]; exact h), hu⟩
        · rintro ⟨h, rfl⟩
          exact (Repo.scan_mem hn r').1 h
      · intro r _; exact ⟨keptTags_sub r, fun _ h => h⟩
  have hn' : Named s'.files :=
    ⟨(hperm.map Prod.fst).nodup_iff.2 hM.named.nodup,
      fun n f hm hf => hM.named.named n f (hperm.mem_iff.1 hm) hf⟩
  have hdisk' : ∀ v, onDisk s'.files v = onDisk files' v := by
    intro v
    unfold onDisk
    rw [Dict.get?_perm hperm hn'.nodup]
  -- the history found by the second run
  have hhist : s'.scan.history = h := by
    have hmem : ∀ r, r ∈ s'.scan.history ↔ r ∈ h := by
      intro r
      rw [Repo.scan_mem hn', hdisk', hM.disk]
      simp
    have hhn : h.Nodup := by
      rw [hM.hist]
      apply List.Nodup.of_map Rev.uuid
      rw [List.map_map]
      exact (hH.sublist ((List.filter_sublist).map _))
    have hp : s'.scan.history.Perm h :=
      (List.perm_ext_iff_of_nodup (nodup_of_map_uuid s'.scan_nodup) hhn).2 hmem
    have hsorted : h.Pairwise (fun a b => a.ts ≤ b.ts) := by
      rw [hM.hist, List.pairwise_map]
      exact s.scan_sorted.sublist List.filter_sublist
    refine List.Perm.eq_of_pairwise ?_ s'.scan_sorted hsorted hp
    intro a b ha hb h1 h2
    rw [hmem, hM.hist] at ha
    rw [hM.hist] at hb
    simp only [List.mem_map, List.mem_filter] at ha hb
    obtain ⟨a', ⟨ha', _⟩, rfl⟩ := ha
    obtain ⟨b', ⟨hb', _⟩, rfl⟩ := hb
    have e1 : a'.ts ≤ b'.ts := h1
    have e2 : b'.ts ≤ a'.ts := h2
    rw [hdist a' ha' b' hb' (by omega)]
  have main1 := (C27_expiry_exact sch hs now2 pd s' hn' hlog').1 u
  have main2 := (C27_expiry_exact sch hs now2 pd s hn hlog).1 u
  rw [hhist, hM.hist] at main1
  have hkept := fun {r : Rev} (hr : r ∈ s.scan.history) (hk : K r = true) =>
    kept_of_mid hs hle hH hM.sub hM.gone hr hk
  have key : ∀ x, onDisk (sch.expire pd now2 s').2.files u = some x ↔
      onDisk (sch.expire pd now2 s).2.files u = some x := by
    intro x
    rw [main1 x, main2 x]
    constructor
    · rintro ⟨r1, h1, rfl, h2⟩
      rw [hdisk', hM.disk, hM.hist] at h1
      obtain ⟨h1, hu⟩ := h1
      simp only [List.mem_map, List.mem_filter] at h1
      obtain ⟨r, ⟨hr, hk⟩, rfl⟩ := h1
      rw [hkept hr hk] at h2 ⊢
      have hru : r.uuid = u := hu
      exact ⟨r, by rw [← hru]; exact (Repo.scan_mem hn r).1 hr, rfl, h2⟩
    · rintro ⟨r, h1, rfl, h2⟩
      have hru : r.uuid = u := (hn.named u _ (Dict.mem_of_get? (onDisk_eq_some.1 h1)) rfl).symm
      have hr : r ∈ s.scan.history := (Repo.scan_mem hn r).2 (by rw [hru]; exact h1)
      have hk : K r = true := by
        cases hk : K r with
        | true => rfl
        | false =>
          obtain ⟨g1, g2⟩ := hM.gone r hr hk
          refine absurd ⟨?_, g2⟩ h2
          rw [Finset.eq_empty_iff_forall_notMem] at g1 ⊢
          intro t ht
          rw [mem_keptTags] at ht
          apply g1 t
          rw [mem_keptTags]
          exact ⟨ht.1, ht.2.1, fun hc => ht.2.2 (due_mono hle hc)⟩
      refine ⟨r.withTags (T r), ?_, ?_, ?_⟩
      · rw [hdisk', hM.disk, hM.hist]
        exact ⟨List.mem_map.2 ⟨r, List.mem_filter.2 ⟨hr, hk⟩, rfl⟩, hru⟩
      · rw [hkept hr hk]; rfl
      · rw [hkept hr hk]; exact h2
  cases h1 : onDisk (sch.expire pd now2 s).2.files u with
  | some x => exact (key x).2 h1
  | none =>
    cases h2 : onDisk (sch.expire pd now2 s').2.files u with
    | none => rfl
    | some x => rw [(key x).1 h2] at h1; cases h1

theorem log_files_remove (s : Repo) (r : Rev) :
    (s.remove r).files = s.files ∨ (s.remove r).files ∈ (s.remove r).log := by
  unfold Repo.remove
  split
  · exact .inr (by simp [Repo.store, Repo.writeInfo])
  · exact .inr (by simp [Repo.drop])

/-- The state in memory is either untouched or logged. -/
def Logged (f0 : Dict String RevFile) (s : Repo) : Prop := s.files = f0 ∨ s.files ∈ s.log

theorem Logged.store {f0 : Dict String RevFile} (s : Repo) (r : Rev) : Logged f0 (s.store r) :=
  .inr (by simp [Repo.store, Repo.writeInfo])

theorem Logged.remove {f0 : Dict String RevFile} (s : Repo) (r : Rev) : Logged f0 (s.remove r) := by
  unfold Repo.remove
  split
  · exact Logged.store _ _
  · exact .inr (by simp [Repo.drop])

theorem foldl_logged {f0 : Dict String RevFile} (g : Repo → Rev → Repo)
    (hg : ∀ s r, Logged f0 s → Logged f0 (g s r)) : ∀ (l : List Rev) (s : Repo), Logged f0 s →
    Logged f0 (l.foldl g s)
  | [], _, h => h
  | r :: l, s, h => foldl_logged g hg l (g s r) (hg s r h)

theorem expireRevs_logged {f0 : Dict String RevFile} (tag : String) (thr : Int) : ∀ (l : List Rev) (s : Repo), Logged f0 s →
    Logged f0 (expireRevs tag thr l s).2
  | [], _, h => h
  | r :: l, s, h => by
    simp only [expireRevs]
    split
    · exact expireRevs_logged tag thr l s h
    · split
      · exact h
      · exact expireRevs_logged tag thr l _ (Logged.store _ _)

theorem expirePhase1_logged {f0 : Dict String RevFile} (pd : String → Option Int) (now : String → Int) :
    ∀ (l : List (String × TagSpec)) (s : Repo), Logged f0 s → Logged f0 (expirePhase1 pd now l s).2
  | [], _, h => h
  | (tag, a) :: l, s, h => by
    have hstep : Logged f0 (expireTag pd (now tag) tag a s).2 := by
      unfold expireTag
      split
      · exact h
      · split
        · exact h
        · exact expireRevs_logged _ _ _ _ h
    rw [expirePhase1]
    cases he : expireTag pd (now tag) tag a s with
    | mk e s1 =>
      rw [he] at hstep
      cases e with
      | error e => exact hstep
      | ok u => exact expirePhase1_logged pd now l s1 hstep

theorem expire_logged (sch : Schedule) (pd : String → Option Int) (now : String → Int) (s : Repo) :
    (sch.expire pd now s).2.files = s.files ∨ (sch.expire pd now s).2.files ∈ (sch.expire pd now s).2.log := by
  have h0 : Logged s.files s.scan := .inl rfl
  have h1 := expirePhase1_logged pd now sch s.scan h0
  unfold Schedule.expire
  cases he : expirePhase1 pd now sch s.scan with
  | mk e s1 =>
    rw [he] at h1
    cases e with
    | error e => exact h1
    | ok u =>
      dsimp only
      have h2 : Logged s.files (expirePhase2 sch s1) := by
        refine foldl_logged _ ?_ _ _ h1
        intro s r hs
        split
        · exact Logged.store _ _
        · exact hs
      exact foldl_logged _ (fun s r _ => Logged.remove s r) _ _ h2

/-- **C29** Running expiry again at the same or a later time ends in the same state as running it only then;
in particular running it twice at the same time is the same as running it once. -/
theorem C29_idempotent (sch : Schedule) (hs : GoodSchedule sch) (now1 now2 : String → Int)
    (hle : ∀ t, now1 t ≤ now2 t) (pd : String → Option Int) (s : Repo) (hn : Named s.files)
    (hlog : s.log = [])
    (hdist : ∀ a ∈ s.scan.history, ∀ b ∈ s.scan.history, a.ts = b.ts → a = b) (u : String) :
    onDisk (sch.expire pd now2 (⟨(sch.expire pd now1 s).2.files, (sch.expire pd now1 s).2.history, []⟩ : Repo)).2.files u =
      onDisk (sch.expire pd now2 s).2.files u :=
  C29_restartable sch hs now1 now2 hle pd s hn hlog hdist _ (expire_logged sch pd now1 s).symm
    (⟨(sch.expire pd now1 s).2.files, (sch.expire pd now1 s).2.history, []⟩ : Repo) (List.Perm.refl _) rfl u

/-! ### Concrete case -/

/-- Daily backups of a week with one manual and one remote one. -/
def exExpire : Repo :=
  { files := [("a", ⟨false, mkRev "a" (seconds (100 * DAY)) {"daily"}⟩),
              ("b", ⟨false, mkRev "b" (seconds (101 * DAY)) {"daily", "manual:x"}⟩),
              ("c", ⟨false, mkRev "c" (seconds (102 * DAY)) {"daily", "old"} "srv"⟩),
              ("d", ⟨false, mkRev "d" (seconds (103 * DAY)) {"daily"}⟩),
              ("e", ⟨false, mkRev "e" (seconds (104 * DAY)) {"daily", "weekly"}⟩)],
    history := [] }

example : Named exExpire.files := by
  refine ⟨by decide +kernel, ?_⟩
  intro n f hm hf
  simp only [exExpire, List.mem_cons, Prod.mk.injEq, List.not_mem_nil, or_false] at hm
  rcases hm with ⟨rfl, rfl⟩ | ⟨rfl, rfl⟩ | ⟨rfl, rfl⟩ | ⟨rfl, rfl⟩ | ⟨rfl, rfl⟩ <;> rfl

theorem exSchedule_good : GoodSchedule exSchedule := by
  refine ⟨by decide +kernel, by decide +kernel, ?_⟩
  intro e he
  simp only [exSchedule, List.mem_cons, List.not_mem_nil, or_false] at he
  rcases he with rfl | rfl <;>
  · refine ⟨?_, ?_, ?_⟩
    · repeat' (first | exact trivial | refine noSep_cons (by decide) ?_)
    · intro c hc; revert hc; revert c; decide +kernel
    · intro c hc; revert hc; revert c; decide +kernel

/-- Test (C26-C28): at day 105 with keep 2, "a" disappears, "b" keeps its manual tag, the remote "c" stays
without tags, the two newest keep their tags. -/
example : ((exSchedule.expire (fun _ => none) (fun _ => seconds (105 * DAY)) exExpire).2.files.map
      (fun e => (e.1, e.2.rev.tags))) =
    [("b", {"manual:x"}), ("c", ∅), ("d", {"daily"}), ("e", {"daily", "weekly"})] := by decide +kernel

example : (match (exSchedule.expire (fun _ => none) (fun _ => seconds (105 * DAY)) exExpire).1 with
    | .ok l => l.map Rev.uuid | .error _ => []) = ["a", "c"] := by decide +kernel

/-- With `keep: 0` nothing ever expires (the slice `[:-0]` is empty), which is why `GoodSchedule` asks for a
positive `keep`. -/
example (l : List Rev) : dropNewest 0 l = [] := rfl

theorem exExpire_named : Named exExpire.files := by
  refine ⟨by decide +kernel, ?_⟩
  intro n f hm hf
  simp only [exExpire, List.mem_cons, Prod.mk.injEq, List.not_mem_nil, or_false] at hm
  rcases hm with ⟨rfl, rfl⟩ | ⟨rfl, rfl⟩ | ⟨rfl, rfl⟩ | ⟨rfl, rfl⟩ | ⟨rfl, rfl⟩ <;> rfl

example := C27_expiry_exact exSchedule exSchedule_good (fun _ => seconds (105 * DAY)) (fun _ => none) exExpire exExpire_named rfl
example := C28_gone_iff_untagged exSchedule exSchedule_good (fun _ => seconds (105 * DAY)) (fun _ => none) exExpire exExpire_named rfl "a"
example := C29_idempotent exSchedule exSchedule_good (fun _ => seconds (105 * DAY)) (fun _ => seconds (106 * DAY)) (fun _ => by decide) (fun _ => none) exExpire exExpire_named rfl
  (by decide +kernel)
example := C29_restartable exSchedule exSchedule_good (fun _ => seconds (105 * DAY)) (fun _ => seconds (106 * DAY)) (fun _ => by decide) (fun _ => none) exExpire exExpire_named rfl
  (by decide +kernel) exExpire.files (.inr rfl) exExpire (List.Perm.refl _) rfl "a"

/-- C26_keeps_newest_and_young: `e` is among the newest daily revisions and keeps its tag. -/
example := C26_keeps_newest_and_young exSchedule exSchedule_good (fun _ => seconds (105 * DAY)) (fun _ => none) exExpire exExpire_named rfl
  "daily" exSchedule[0].2 (by decide +kernel) (exExpire.files[4].2.rev) (by decide +kernel) (by decide +kernel) (.inr (by decide +kernel))

/-- C27_expiry_tags: `b` loses `daily` and keeps its manual tag. -/
example := C27_expiry_tags exSchedule exSchedule_good (fun _ => seconds (105 * DAY)) (fun _ => none) exExpire exExpire_named rfl
  exExpire.files[1].2.rev { exExpire.files[1].2.rev with tags := {"manual:x"} } (by decide +kernel) (by decide +kernel)

end Verif.Repo
