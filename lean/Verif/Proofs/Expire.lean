import Verif.Proofs.RepoScan
import Verif.Proofs.Tokenize
import Verif.Spec.Expiry
/-!
# Expiry refines its specification
-/
set_option linter.dupNamespace false
namespace Verif.Repo
open Verif Verif.Repo.Spec
open scoped Classical

/-- A revision with other tags. -/
def Rev.withTags (r : Rev) (t : Finset String) : Rev := { r with tags := t }

/-- Files and history are in an intermediate state of an expiry of `H`: the revisions in `K` are left, with
tags `T`, which lie between the final ones `F` and the original ones. -/
structure Mid (H : List Rev) (F : Rev → Finset String) (files : Dict String RevFile)
    (history : List Rev) (T : Rev → Finset String) (K : Rev → Bool) : Prop where
  named : Named files
  hist : history = (H.filter K).map (fun r => r.withTags (T r))
  disk : ∀ u r', onDisk files u = some r' ↔ r' ∈ history ∧ r'.uuid = u
  sub : ∀ r ∈ H, F r ⊆ T r ∧ T r ⊆ r.tags
  gone : ∀ r ∈ H, K r = false → F r = ∅ ∧ r.server = ""

/-- The same for a repository state, including all logged intermediate states. -/
structure MidS (H : List Rev) (F : Rev → Finset String) (s : Repo) (T : Rev → Finset String)
    (K : Rev → Bool) : Prop where
  mid : Mid H F s.files s.history T K
  log : ∀ f ∈ s.log, ∃ h T K, Mid H F f h T K

theorem Named.set {files : Dict String RevFile} (h : Named files) (r : Rev) :
    Named (files.set r.uuid ⟨false, r⟩) := by
  refine ⟨Dict.nodup_set h.nodup _ _, ?_⟩
  intro n f hm hf
  rcases Dict.mem_set hm with hm | hm
  · cases hm; rfl
  · exact h.named n f hm hf

theorem Named.erase {files : Dict String RevFile} (h : Named files) (u : String) :
    Named (files.erase u) := by
  refine ⟨Dict.nodup_erase h.nodup _, ?_⟩
  intro n f hm hf
  exact h.named n f (List.mem_of_mem_filter hm) hf

theorem onDisk_set {files : Dict String RevFile} (r : Rev) (u : String) :
    onDisk (files.set r.uuid ⟨false, r⟩) u = if u = r.uuid then some r else onDisk files u := by
  unfold onDisk
  rw [Dict.get?_set]
  by_cases h : u = r.uuid
  · rw [if_pos h, if_pos h]; rfl
  · rw [if_neg h, if_neg h]

theorem onDisk_erase {files : Dict String RevFile} (v u : String) :
    onDisk (files.erase v) u = if u = v then none else onDisk files u := by
  unfold onDisk
  rw [Dict.get?_erase]
  by_cases h : u = v
  · rw [if_pos h, if_pos h]
  · rw [if_neg h, if_neg h]

theorem Mid.store {H : List Rev} {F : Rev → Finset String} {s : Repo} {T : Rev → Finset String}
    {K : Rev → Bool} (hH : (H.map Rev.uuid).Nodup) (h : MidS H F s T K) {r0 : Rev} (hr : r0 ∈ H)
    (hK : K r0 = true) {X : Finset String} (hX1 : F r0 ⊆ X) (hX2 : X ⊆ r0.tags) :
    MidS H F (s.store (r0.withTags X)) (fun r => if r = r0 then X else T r) K := by
  have hhist : (s.store (r0.withTags X)).history =
      (H.filter K).map (fun r => r.withTags (if r = r0 then X else T r)) := by
    show s.history.map _ = _
    rw [h.mid.hist, List.map_map]
    apply List.map_congr_left
    intro r hrm
    have hrH := List.mem_of_mem_filter hrm
    by_cases he : r = r0
    · subst he; simp [Rev.withTags]
    · have hne : r.uuid ≠ r0.uuid := fun hu => he (eq_of_uuid hH hrH hr hu)
      simp [Rev.withTags, he, hne]
  have hm : Mid H F (s.store (r0.withTags X)).files (s.store (r0.withTags X)).history
      (fun r => if r = r0 then X else T r) K := by
    refine ⟨h.mid.named.set (r0.withTags X), hhist, ?_, ?_, h.mid.gone⟩
    · intro u r'
      show onDisk (s.files.set (r0.withTags X).uuid ⟨false, r0.withTags X⟩) u = _ ↔ _
      rw [onDisk_set, hhist]
      by_cases hu : u = (r0.withTags X).uuid
      · rw [if_pos hu]
        constructor
        · intro he
          cases he
          refine ⟨?_, hu.symm⟩
          simp only [List.mem_map, List.mem_filter]
          exact ⟨r0, ⟨hr, hK⟩, by simp⟩
        · rintro ⟨hm, hu'⟩
          simp only [List.mem_map, List.mem_filter] at hm
          obtain ⟨r, ⟨hrH, _⟩, rfl⟩ := hm
          have : r = r0 := eq_of_uuid hH hrH hr (by
            have : r.uuid = u := hu'
            rw [this, hu]; rfl)
          subst this; simp
      · rw [if_neg hu, h.mid.disk, h.mid.hist]
        simp only [List.mem_map, List.mem_filter]
        constructor
        · rintro ⟨⟨r, hr1, rfl⟩, hu'⟩
          have hne : r ≠ r0 := by rintro rfl; exact hu hu'.symm
          exact ⟨⟨r, hr1, by simp [hne]⟩, hu'⟩
        · rintro ⟨⟨r, hr1, rfl⟩, hu'⟩
          have hne : r ≠ r0 := by rintro rfl; exact hu hu'.symm
          exact ⟨⟨r, hr1, by simp [hne]⟩, hu'⟩
    · intro r hrH
      split
      · rename_i he; subst he; exact ⟨hX1, hX2⟩
      · exact h.mid.sub r hrH
  refine ⟨hm, ?_⟩
  intro f hf
  rcases List.mem_cons.1 hf with rfl | hf
  · exact ⟨_, _, _, hm⟩
  · exact h.log f hf

theorem Mid.drop {H : List Rev} {F : Rev → Finset String} {s : Repo} {T : Rev → Finset String}
    {K : Rev → Bool} (hH : (H.map Rev.uuid).Nodup) (h : MidS H F s T K) {r0 : Rev} (hr : r0 ∈ H)
    (hF : F r0 = ∅) (hs : r0.server = "") (X : Finset String) :
    MidS H F (s.drop (r0.withTags X)) T (fun r => K r && decide (r ≠ r0)) := by
  have hhist : (s.drop (r0.withTags X)).history =
      (H.filter (fun r => K r && decide (r ≠ r0))).map (fun r => r.withTags (T r)) := by
    show s.history.filter _ = _
    rw [h.mid.hist, List.filter_map, ← List.filter_filter, List.filter_filter, List.filter_filter]
    congr 1
    apply List.filter_congr
    intro r hrH
    have : (r.uuid = r0.uuid) ↔ r = r0 := ⟨eq_of_uuid hH hrH hr, fun h => by rw [h]⟩
    simp only [Function.comp, Rev.withTags, ne_eq, this]
    rw [Bool.and_comm]
  have hm : Mid H F (s.drop (r0.withTags X)).files (s.drop (r0.withTags X)).history T
      (fun r => K r && decide (r ≠ r0)) := by
    refine ⟨h.mid.named.erase _, hhist, ?_, h.mid.sub, ?_⟩
    · intro u r'
      show onDisk (s.files.erase (r0.withTags X).uuid) u = _ ↔ _
      rw [onDisk_erase, hhist]
      by_cases hu : u = (r0.withTags X).uuid
      · rw [if_pos hu]
        constructor
        · intro he; cases he
        · rintro ⟨hm, hu'⟩
          simp only [List.mem_map, List.mem_filter, Bool.and_eq_true, decide_eq_true_eq] at hm
          obtain ⟨r, ⟨hrH, _, hne⟩, rfl⟩ := hm
          exact absurd (eq_of_uuid hH hrH hr (by
            have : r.uuid = u := hu'
            rw [this, hu]; rfl)) hne
      · rw [if_neg hu, h.mid.disk, h.mid.hist]
        simp only [List.mem_map, List.mem_filter, Bool.and_eq_true, decide_eq_true_eq]
        constructor
        · rintro ⟨⟨r, ⟨hr1, hr2⟩, rfl⟩, hu'⟩
          have hne : r ≠ r0 := by rintro rfl; exact hu hu'.symm
          exact ⟨⟨r, ⟨hr1, hr2, hne⟩, rfl⟩, hu'⟩
        · rintro ⟨⟨r, ⟨hr1, hr2, _⟩, rfl⟩, hu'⟩
          exact ⟨⟨r, ⟨hr1, hr2⟩, rfl⟩, hu'⟩
    · intro r hrH hk
      simp only [Bool.and_eq_false_iff, decide_eq_false_iff_not, ne_eq, not_not] at hk
      rcases hk with hk | rfl
      · exact h.mid.gone r hrH hk
      · exact ⟨hF, hs⟩
  refine ⟨hm, ?_⟩
  intro f hf
  rcases List.mem_cons.1 hf with rfl | hf
  · exact ⟨_, _, _, hm⟩
  · exact h.log f hf

/-! ### The keep newest -/

theorem mem_dropNewest {k : Nat} (hk : 0 < k) {l : List Rev} (hn : l.Nodup) (r : Rev) :
    r ∈ dropNewest k l ↔ r ∈ l ∧ r ∉ l.reverse.take k := by
  unfold dropNewest
  rw [if_neg (by omega)]
  have hrev : l.reverse.take k = (l.drop (l.length - k)).reverse := by
    rw [List.take_reverse]
  rw [hrev, List.mem_reverse]
  have happ := List.take_append_drop (l.length - k) l
  constructor
  · intro h
    refine ⟨List.mem_of_mem_take h, fun h' => ?_⟩
    rw [← happ, List.nodup_append] at hn
    exact hn.2.2 r h r h' rfl
  · rintro ⟨h1, h2⟩
    rw [← happ, List.mem_append] at h1
    rcases h1 with h | h
    · exact h
    · exact absurd h h2

theorem dropNewest_map (k : Nat) (l : List Rev) (f : Rev → Rev) :
    dropNewest k (l.map f) = (dropNewest k l).map f := by
  unfold dropNewest
  split
  · rfl
  · rw [List.length_map, List.map_take]

/-- Hypotheses on the schedule: a dictionary with positive `keep` and tags that revision expressions can
name. -/
structure GoodSchedule (sch : Schedule) : Prop where
  nodup : sch.keys.Nodup
  keep : ∀ e ∈ sch, 0 < e.2.keep
  plain : ∀ e ∈ sch, PlainTag e.1

theorem keptTags_sub {sch : Schedule} {now : String → Int} {H : List Rev} (r : Rev) :
    keptTags sch now H r ⊆ r.tags := Finset.filter_subset _ _

theorem not_due_of_kept {sch : Schedule} {now : String → Int} {H : List Rev} {r : Rev} {t : String}
    (h : t ∈ keptTags sch now H r) : ¬ Due sch now H t r := by
  unfold keptTags at h
  rw [Finset.mem_filter] at h
  exact h.2.2

theorem mem_keptTags {sch : Schedule} {now : String → Int} {H : List Rev} {r : Rev} {t : String} :
    t ∈ keptTags sch now H r ↔
      t ∈ r.tags ∧ (isManual t = true ∨ t ∈ sch.keys) ∧ ¬ Due sch now H t r := by
  unfold keptTags
  rw [Finset.mem_filter]

/-! ### Phase 1 -/

/-- The inner loop. -/
theorem expireRevs_ok {H : List Rev} {F : Rev → Finset String} (hH : (H.map Rev.uuid).Nodup)
    (tag : String) (thr : Int) (T0 : Rev → Finset String) {K : Rev → Bool} :
    ∀ (old : List Rev) (s : Repo) (T : Rev → Finset String),
      MidS H F s T K → old.Nodup → (∀ r ∈ old, r ∈ H ∧ K r = true ∧ T r = T0 r) →
      (∀ r ∈ old, r.ts < thr → tag ∉ F r) → (∀ r ∈ old, tag ∈ T0 r) →
      ∃ s', expireRevs tag thr (old.map (fun r => r.withTags (T0 r))) s = (.ok (), s') ∧
        MidS H F s' (fun r => if r ∈ old ∧ r.ts < thr then (T r).erase tag else T r) K := by
  intro old
  induction old with
  | nil => intro s T h _ _ _ _; exact ⟨s, rfl, by simpa using h⟩
  | cons r0 old ih =>
    intro s T h hn hold hF hcar
    rw [List.nodup_cons] at hn
    obtain ⟨hr0, hK0, hT0⟩ := hold r0 (by simp)
    rw [List.map_cons]
    simp only [expireRevs]
    by_cases hts : r0.ts < thr
    · rw [if_neg (by simpa [Rev.withTags] using hts), if_neg (not_not.2 (show tag ∈ (r0.withTags (T0 r0)).tags from hcar r0 (by simp)))]
      have hstep := Mid.store hH h hr0 hK0 (X := (T r0).erase tag)
        (by
          intro t ht
          rw [Finset.mem_erase]
          refine ⟨?_, (h.mid.sub r0 hr0).1 ht⟩
          rintro rfl
          exact hF r0 (by simp) hts ht)
        (fun t ht => (h.mid.sub r0 hr0).2 (Finset.mem_of_mem_erase ht))
      have heq : ({ r0.withTags (T0 r0) with tags := (r0.withTags (T0 r0)).tags.erase tag } : Rev) =
          r0.withTags ((T r0).erase tag) := by rw [← hT0]; rfl
      rw [heq]
      obtain ⟨s', e1, this⟩ := ih _ _ hstep hn.2 (fun r hr => by
        obtain ⟨a1, a2, a3⟩ := hold r (by simp [hr])
        refine ⟨a1, a2, ?_⟩
        rw [if_neg (by rintro rfl; exact hn.1 hr)]
        exact a3) (fun r hr => hF r (by simp [hr])) (fun r hr => hcar r (by simp [hr]))
      refine ⟨s', e1, ?_⟩
      convert this using 2 with r
      by_cases he : r = r0
      · subst he
        rw [if_pos ⟨by simp, hts⟩, if_pos rfl, if_neg (by rintro ⟨h1, _⟩; exact hn.1 h1)]
      · rw [if_neg he]
        simp only [List.mem_cons, he, false_or]
    · rw [if_pos (by simp [Rev.withTags]; omega)]
      obtain ⟨s', e1, this⟩ := ih s T h hn.2 (fun r hr => hold r (by simp [hr])) (fun r hr => hF r (by simp [hr]))
        (fun r hr => hcar r (by simp [hr]))
      refine ⟨s', e1, ?_⟩
      convert this using 2 with r
      by_cases he : r = r0
      · subst he
        rw [if_neg (fun hc => hts hc.2), if_neg (fun hc => hts hc.2)]
      · simp only [List.mem_cons, he, false_or]

theorem expireTag_ok {sch : Schedule} (hs : GoodSchedule sch) {now : String → Int} {H : List Rev}
    (hH : (H.map Rev.uuid).Nodup) (pd : String → Option Int) {tag : String} {a : TagSpec}
    (hm : (tag, a) ∈ sch) {s : Repo} {T : Rev → Finset String}
    (h : MidS H (keptTags sch now H) s T (fun _ => true))
    (hT : ∀ r ∈ H, tag ∈ T r ↔ tag ∈ r.tags) :
    ∃ s', expireTag pd (now tag) tag a s = (.ok (), s') ∧
      MidS H (keptTags sch now H) s'
        (fun r => if tag ∈ r.tags ∧ Due sch now H tag r then (T r).erase tag else T r) (fun _ => true) := by
  have hHn : H.Nodup := nodup_of_map_uuid hH
  have hrevs : s.history.filter (fun r => decide (tag ∈ r.tags)) =
      (carriers H tag).map (fun r => r.withTags (T r)) := by
    rw [h.mid.hist, List.filter_map]
    unfold carriers
    congr 1
    rw [List.filter_filter]
    apply List.filter_congr
    intro r hr
    simp [Function.comp, Rev.withTags, hT r hr]
  have hcn : (carriers H tag).Nodup := hHn.filter _
  have hdn : ∀ r, r ∈ dropNewest a.keep (carriers H tag) ↔
      r ∈ carriers H tag ∧ ¬ AmongNewest H tag a.keep r := mem_dropNewest (hs.keep _ hm) hcn
  have hdue : ∀ r ∈ H, (tag ∈ r.tags ∧ Due sch now H tag r) ↔
      (r ∈ dropNewest a.keep (carriers H tag) ∧ r.ts < now tag - a.keep * a.interval) := by
    intro r hr
    rw [hdn]
    constructor
    · rintro ⟨ht, a', hm', h1, h2⟩
      have : a' = a := by
        have e1 := Dict.get?_of_mem hs.nodup hm
        have e2 := Dict.get?_of_mem hs.nodup hm'
        rw [e1] at e2; cases e2; rfl
      subst this
      exact ⟨⟨by simp [carriers, hr, ht], h1⟩, h2⟩
    · rintro ⟨⟨hc, h1⟩, h2⟩
      simp only [carriers, List.mem_filter, decide_eq_true_eq] at hc
      exact ⟨hc.2, a, hm, h1, h2⟩
  unfold expireTag
  rw [findRevisions_tag _ _ (hs.plain _ hm)]
  dsimp only
  rw [hrevs]
  by_cases hlen : ((carriers H tag).map (fun r => r.withTags (T r))).length < a.keep
  · rw [if_pos hlen]
    refine ⟨s, rfl, ?_⟩
    rw [List.length_map] at hlen
    have hnil : dropNewest a.keep (carriers H tag) = [] := by
      unfold dropNewest
      split
      · rfl
      · rw [show (carriers H tag).length - a.keep = 0 by omega]; rfl
    obtain ⟨⟨m1, m2, m3, m4, m5⟩, hlog⟩ := h
    have hfun : ∀ r ∈ H, (if tag ∈ r.tags ∧ Due sch now H tag r then (T r).erase tag else T r) = T r := by
      intro r hr
      rw [if_neg]
      rw [hdue r hr, hnil]; simp
    refine ⟨⟨m1, ?_, m3, ?_, m5⟩, hlog⟩
    · rw [m2]
      apply List.map_congr_left
      intro r hr
      rw [hfun r (List.mem_of_mem_filter hr)]
    · intro r hr
      rw [hfun r hr]; exact m4 r hr
  · rw [if_neg hlen, dropNewest_map]
    have hsub : ∀ r ∈ dropNewest a.keep (carriers H tag), r ∈ H := fun r hr =>
      List.mem_of_mem_filter ((hdn r).1 hr).1
    have hdnn : (dropNewest a.keep (carriers H tag)).Nodup := by
      unfold dropNewest
      split
      · exact List.nodup_nil
      · exact hcn.sublist (List.take_sublist _ _)
    obtain ⟨s', e1, this⟩ := expireRevs_ok hH tag (now tag - a.keep * a.interval) T
      (dropNewest a.keep (carriers H tag)) s T h hdnn (fun r hr => ⟨hsub r hr, rfl, rfl⟩)
      (fun r hr hlt hF => not_due_of_kept hF ((hdue r (hsub r hr)).2 ⟨hr, hlt⟩).2)
      (fun r hr => (hT r (hsub r hr)).2 (of_decide_eq_true (List.mem_filter.1 ((hdn r).1 hr).1).2))
    refine ⟨s', e1, ?_⟩
    obtain ⟨⟨m1, m2, m3, m4, m5⟩, hlog⟩ := this
    have hfun : ∀ r ∈ H, (if r ∈ dropNewest a.keep (carriers H tag) ∧ r.ts < now tag - a.keep * a.interval
        then (T r).erase tag else T r) =
        (if tag ∈ r.tags ∧ Due sch now H tag r then (T r).erase tag else T r) := by
      intro r hr
      by_cases hd : tag ∈ r.tags ∧ Due sch now H tag r
      · rw [if_pos hd, if_pos ((hdue r hr).1 hd)]
      · rw [if_neg hd, if_neg (fun hc => hd ((hdue r hr).2 hc))]
    refine ⟨⟨m1, ?_, m3, ?_, m5⟩, hlog⟩
    · rw [m2]
      apply List.map_congr_left
      intro r hr
      rw [hfun r (List.mem_of_mem_filter hr)]
    · intro r hr
      have := m4 r hr
      rw [hfun r hr] at this
      exact this

/-- Tags after phase 1 for the tags not in `todo`. -/
noncomputable def T1 (sch : Schedule) (now : String → Int) (H : List Rev) (todo : List String) (r : Rev) :
    Finset String :=
  r.tags.filter (fun t => t ∈ todo ∨ ¬ Due sch now H t r)

theorem expirePhase1_ok {sch : Schedule} (hs : GoodSchedule sch) {now : String → Int} {H : List Rev}
    (hH : (H.map Rev.uuid).Nodup) (pd : String → Option Int) :
    ∀ (l : List (String × TagSpec)) (s : Repo), (∀ e ∈ l, e ∈ sch) → (l.map Prod.fst).Nodup →
      MidS H (keptTags sch now H) s (T1 sch now H (l.map Prod.fst)) (fun _ => true) →
      ∃ s', expirePhase1 pd now l s = (.ok (), s') ∧
        MidS H (keptTags sch now H) s' (T1 sch now H []) (fun _ => true)
  | [], s, _, _, h => ⟨s, rfl, h⟩
  | (tag, a) :: l, s, hl, hn, h => by
    rw [List.map_cons, List.nodup_cons] at hn
    have hm := hl (tag, a) (by simp)
    obtain ⟨s1, e1, e2⟩ := expireTag_ok hs hH pd hm h (by
      intro r hr
      simp [T1])
    rw [expirePhase1, e1]
    refine expirePhase1_ok hs hH pd l s1 (fun e he => hl e (by simp [he])) hn.2 ?_
    have hfun : ∀ r, (if tag ∈ r.tags ∧ Due sch now H tag r then
        (T1 sch now H (tag :: l.map Prod.fst) r).erase tag else T1 sch now H (tag :: l.map Prod.fst) r) =
        T1 sch now H (l.map Prod.fst) r := by
      intro r
      ext t
      by_cases ht : t = tag
      · subst ht
        have hnt : t ∉ l.map Prod.fst := hn.1
        split
        · rename_i hc
          simp only [T1, Finset.mem_erase, Finset.mem_filter, hnt, hc.2, false_or, not_true, and_false,
            ne_eq, false_and]
        · rename_i hc
          simp only [T1, Finset.mem_filter, List.mem_cons, true_or, and_true, hnt, false_or]
          tauto
      · split
        · simp [T1, ht]
        · simp [T1, ht]
    obtain ⟨⟨m1, m2, m3, m4, m5⟩, hlog⟩ := e2
    refine ⟨⟨m1, ?_, m3, ?_, m5⟩, hlog⟩
    · rw [m2]
      apply List.map_congr_left
      intro r hr
      congr 1
      exact hfun r
    · intro r hr
      have := m4 r hr
      rw [← hfun r]; exact this

/-! ### Phase 2 -/

theorem phase2_tags {sch : Schedule} {now : String → Int} {H : List Rev} (r : Rev) :
    T1 sch now H [] r \ expiredTags sch (T1 sch now H [] r) = keptTags sch now H r := by
  ext t
  rw [mem_keptTags]
  simp only [Finset.mem_sdiff, expiredTags, scheduleTags, T1, Finset.mem_filter, List.not_mem_nil, false_or]
  cases isManual t <;> simp <;> tauto

theorem expirePhase2_loop {sch : Schedule} {now : String → Int} {H : List Rev}
    (hH : (H.map Rev.uuid).Nodup) (T0 : Rev → Finset String)
    (hT0 : ∀ r, T0 r \ expiredTags sch (T0 r) = keptTags sch now H r) :
    ∀ (l : List Rev) (s : Repo) (T : Rev → Finset String), l.Nodup → (∀ r ∈ l, r ∈ H ∧ T r = T0 r) →
      (∀ r ∈ H, r ∉ l → T r = keptTags sch now H r) →
      MidS H (keptTags sch now H) s T (fun _ => true) →
      MidS H (keptTags sch now H) ((l.map (fun r => r.withTags (T0 r))).foldl (fun s r =>
        if expiredTags sch r.tags ≠ ∅ then s.store { r with tags := r.tags \ expiredTags sch r.tags }
        else s) s) (keptTags sch now H) (fun _ => true) := by
  intro l
  induction l with
  | nil =>
    intro s T _ _ hT h
    obtain ⟨⟨m1, m2, m3, m4, m5⟩, hlog⟩ := h
    refine ⟨⟨m1, ?_, m3, ?_, m5⟩, hlog⟩
    · show s.history = _
      rw [m2]
      apply List.map_congr_left
      intro r hr
      rw [hT r (List.mem_of_mem_filter hr) (by simp)]
    · intro r hr; exact ⟨fun _ h => h, keptTags_sub r⟩
  | cons r0 l ih =>
    intro s T hn hl hT h
    rw [List.nodup_cons] at hn
    obtain ⟨hr0, hT0'⟩ := hl r0 (by simp)
    rw [List.map_cons, List.foldl_cons]
    by_cases he : expiredTags sch (r0.withTags (T0 r0)).tags ≠ ∅
    · rw [if_pos he]
      have heq : ({ r0.withTags (T0 r0) with
          tags := (r0.withTags (T0 r0)).tags \ expiredTags sch (r0.withTags (T0 r0)).tags } : Rev) =
          r0.withTags (keptTags sch now H r0) := by
        show r0.withTags (T0 r0 \ expiredTags sch (T0 r0)) = _
        rw [hT0]
      rw [heq]
      have hstep := Mid.store hH h hr0 rfl (X := keptTags sch now H r0) (fun _ h => h) (keptTags_sub r0)
      refine ih _ _ hn.2 ?_ ?_ hstep
      · intro r hr
        obtain ⟨a1, a2⟩ := hl r (by simp [hr])
        refine ⟨a1, ?_⟩
        rw [if_neg (by rintro rfl; exact hn.1 hr)]; exact a2
      · intro r hr hrl
        split
        · rename_i h; rw [h]
        · rename_i h
          exact hT r hr (by simp [h, hrl])
    · rw [if_neg he]
      refine ih s T hn.2 (fun r hr => hl r (by simp [hr])) ?_ h
      intro r hr hrl
      by_cases h : r = r0
      · subst h
        rw [hT0', ← hT0]
        have : expiredTags sch (T0 r) = ∅ := not_not.1 he
        rw [this, Finset.sdiff_empty]
      · exact hT r hr (by simp [h, hrl])

/-! ### Phase 3 -/

theorem expirePhase3_loop {H : List Rev} {F : Rev → Finset String} (hH : (H.map Rev.uuid).Nodup) :
    ∀ (l : List Rev) (s : Repo) (K : Rev → Bool), l.Nodup →
      (∀ r ∈ l, r ∈ H ∧ K r = true ∧ F r = ∅) → MidS H F s F K →
      ∃ K', MidS H F ((l.map (fun r => r.withTags (F r))).foldl (fun s r => s.remove r) s) F K' ∧
        ∀ r ∈ H, K' r = (K r && decide (¬ (r ∈ l ∧ r.server = ""))) := by
  intro l
  induction l with
  | nil => intro s K _ _ h; exact ⟨K, h, by simp⟩
  | cons r0 l ih =>
    intro s K hn hl h
    rw [List.nodup_cons] at hn
    obtain ⟨hr0, hK0, hF0⟩ := hl r0 (by simp)
    rw [List.map_cons, List.foldl_cons]
    unfold Repo.remove
    by_cases hsv : r0.server = ""
    · rw [if_neg (by simp [Rev.withTags, hsv])]
      obtain ⟨K', h1, h2⟩ := ih _ _ hn.2 (by
        intro r hr
        obtain ⟨a1, a2, a3⟩ := hl r (by simp [hr])
        refine ⟨a1, ?_, a3⟩
        have : r ≠ r0 := by rintro rfl; exact hn.1 hr
        simp [a2, this]) (Mid.drop hH h hr0 hF0 hsv (F r0))
      refine ⟨K', h1, fun r hr => ?_⟩
      rw [h2 r hr]
      by_cases he : r = r0
      · subst he; simp [hsv]
      · simp [he]
    · rw [if_pos ⟨rfl, hsv⟩]
      have heq : ({ r0.withTags (F r0) with tags := ∅ } : Rev) = r0.withTags (F r0) := by
        rw [hF0]; rfl
      rw [heq]
      have hstep := Mid.store hH h hr0 hK0 (X := F r0) (fun _ h => h) (h.mid.sub r0 hr0).2
      have hfun : (fun r => if r = r0 then F r0 else F r) = F := by
        funext r; split
        · rename_i h; rw [h]
        · rfl
      rw [hfun] at hstep
      obtain ⟨K', h1, h2⟩ := ih _ _ hn.2 (fun r hr => hl r (by simp [hr])) hstep
      refine ⟨K', h1, fun r hr => ?_⟩
      rw [h2 r hr]
      by_cases he : r = r0
      · subst he; simp [hsv]
      · simp [he]

/-- The whole of expiry. -/
theorem expire_ok {sch : Schedule} (hs : GoodSchedule sch) (now : String → Int) (pd : String → Option Int)
    (s : Repo) (hn : Named s.files) (hlog : s.log = []) :
    ∃ s' K, sch.expire pd now s = (.ok ((s.scan.history.filter
        (fun r => decide (keptTags sch now s.scan.history r = ∅))).map
        (fun r => r.withTags (keptTags sch now s.scan.history r))), s') ∧
      MidS s.scan.history (keptTags sch now s.scan.history) s' (keptTags sch now s.scan.history) K ∧
      ∀ r ∈ s.scan.history, K r = decide (¬ (keptTags sch now s.scan.history r = ∅ ∧ r.server = "")) := by
  have hH := s.scan_nodup
  have hscan := fun r => Repo.scan_mem hn r
  have hfiles : s.scan.files = s.files := rfl
  have hlog' : s.scan.log = s.log := rfl
  generalize hs1 : s.scan = s1 at *
  generalize hHeq : s1.history = H at *
  have h0 : MidS H (keptTags sch now H) s1 (T1 sch now H (sch.map Prod.fst)) (fun _ => true) := by
    have hT : ∀ r, T1 sch now H (sch.map Prod.fst) r = r.tags := by
      intro r
      unfold T1
      rw [Finset.filter_eq_self]
      intro t ht
      by_cases hd : Due sch now H t r
      · obtain ⟨a, ha, _⟩ := hd
        exact .inl (List.mem_map.2 ⟨_, ha, rfl⟩)
      · exact .inr hd
    refine ⟨⟨by rw [hfiles]; exact hn, ?_, ?_, ?_, by simp⟩, by rw [hlog', hlog]; simp⟩
    · rw [hHeq]
      rw [List.filter_eq_self.2 (by simp)]
      conv_lhs => rw [← List.map_id H]
      apply List.map_congr_left
      intro r _
      rw [hT]; rfl
    · intro u r'
      rw [hfiles, hHeq]
      constructor
      · intro h
        have hu : r'.uuid = u := by
          have := hn.named u _ (Dict.mem_of_get? (onDisk_eq_some.1 h)) rfl
          exact this.symm
        exact ⟨(hscan r').2 (by rw [hu]; exact h), hu⟩
      · rintro ⟨h, rfl⟩
        exact (hscan r').1 h
    · intro r _
      rw [hT]
      exact ⟨keptTags_sub r, fun _ h => h⟩
  obtain ⟨s2, e1, e2⟩ := expirePhase1_ok hs hH pd sch s1 (fun e he => he) hs.nodup h0
  have hHn : H.Nodup := nodup_of_map_uuid hH
  have e3 : MidS H (keptTags sch now H) (expirePhase2 sch s2) (keptTags sch now H) (fun _ => true) := by
    have := expirePhase2_loop (sch := sch) (now := now) hH (T1 sch now H []) phase2_tags H s2
      (T1 sch now H []) hHn (fun r hr => ⟨hr, rfl⟩) (fun r hr hr' => absurd hr hr') e2
    unfold expirePhase2
    have hh := e2.mid.hist
    rw [List.filter_eq_self.2 (by simp)] at hh
    rw [hh]
    exact this
  unfold Schedule.expire
  rw [hs1, e1]
  dsimp only
  unfold expirePhase3
  dsimp only
  have hempty : (expirePhase2 sch s2).history.filter (fun r => decide (r.tags = ∅)) =
      (H.filter (fun r => decide (keptTags sch now H r = ∅))).map
        (fun r => r.withTags (keptTags sch now H r)) := by
    have hh := e3.mid.hist
    rw [List.filter_eq_self.2 (by simp)] at hh
    rw [hh, List.filter_map]
    rfl
  rw [hempty]
  obtain ⟨K', h1, h2⟩ := expirePhase3_loop hH (H.filter (fun r => decide (keptTags sch now H r = ∅)))
    (expirePhase2 sch s2) (fun _ => true) (hHn.filter _) (by
      intro r hr
      simp only [List.mem_filter, decide_eq_true_eq] at hr
      exact ⟨hr.1, rfl, hr.2⟩) e3
  refine ⟨_, K', rfl, h1, fun r hr => ?_⟩
  rw [h2 r hr]
  simp [hr]

end Verif.Repo
