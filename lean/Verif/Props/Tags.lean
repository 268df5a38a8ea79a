import Verif.Model.Tags
import Verif.Spec.Tags
import Verif.Proofs.RevResults
import Verif.Proofs.Expire
import Verif.Props.Schedule
/-!
# C35: tag changes are conditional and all-or-nothing
-/
set_option linter.dupNamespace false
namespace Verif.Repo
open Verif Verif.Repo.Spec

theorem actTags_name (a : Action) (old tags : Finset String) :
    actTags a.name old tags = .ok (a.result old tags) := by
  cases a <;> simp [actTags, Action.name, Action.result]

theorem onDisk_tagsStep (a : Action) (tags : Finset String) (auto : Bool) (r : Rev) (s : Repo) (u : String) :
    onDisk (if a.result r.tags tags = ∅ ∧ auto = true then
        ((s.assign { r with tags := a.result r.tags tags }).remove { r with tags := a.result r.tags tags })
      else (s.store { r with tags := a.result r.tags tags })).files u =
    if u = r.uuid then changed a tags auto r else onDisk s.files u := by
  have hset : ∀ x : Rev, x.uuid = r.uuid → onDisk (s.files.set x.uuid ⟨false, x⟩) u =
      if u = r.uuid then some x else onDisk s.files u := by
    intro x hx
    unfold onDisk
    rw [Dict.get?_set, hx]
    by_cases hu : u = r.uuid <;> simp [hu]
  by_cases h : a.result r.tags tags = ∅ ∧ auto = true
  · rw [if_pos h]
    unfold Repo.remove
    by_cases hs : r.server = ""
    · have hc : changed a tags auto r = none := if_pos ⟨h.1, h.2, hs⟩
      rw [if_neg (fun hh => hh.2 hs), hc]
      simp only [Repo.drop, Repo.assign]
      unfold onDisk
      rw [Dict.get?_erase]
      by_cases hu : u = r.uuid <;> simp [hu]
    · have hc : changed a tags auto r = some { r with tags := a.result r.tags tags } :=
        if_neg (fun hh => hs hh.2.2)
      rw [if_pos ⟨rfl, hs⟩, hc, h.1]
      exact hset { r with tags := ∅ } rfl
  · have hc : changed a tags auto r = some { r with tags := a.result r.tags tags } :=
      if_neg (fun hh => h ⟨hh.1, hh.2.1⟩)
    rw [if_neg h, hc]
    exact hset { r with tags := a.result r.tags tags } rfl

theorem tagsLoop_ok (a : Action) (tags : Finset String) (auto : Bool) : ∀ (revs : List Rev) (s : Repo),
    (revs.map Rev.uuid).Nodup →
    (tagsLoop a.name tags auto revs s).1 = .ok true ∧
    ∀ u, onDisk (tagsLoop a.name tags auto revs s).2.files u =
      match revs.find? (fun r => r.uuid = u) with
      | some r => changed a tags auto r
      | none => onDisk s.files u
  | [], s, _ => ⟨rfl, fun u => rfl⟩
  | r :: rest, s, hn => by
    rw [List.map_cons, List.nodup_cons] at hn
    have hstep : tagsLoop a.name tags auto (r :: rest) s =
        tagsLoop a.name tags auto rest (if a.result r.tags tags = ∅ ∧ auto = true then
          ((s.assign { r with tags := a.result r.tags tags }).remove { r with tags := a.result r.tags tags })
        else (s.store { r with tags := a.result r.tags tags })) := by
      rw [tagsLoop, actTags_name]
      dsimp only
      split <;> rfl
    rw [hstep]
    obtain ⟨h1, h2⟩ := tagsLoop_ok a tags auto rest _ hn.2
    refine ⟨h1, fun u => ?_⟩
    rw [h2 u, onDisk_tagsStep, List.find?_cons]
    by_cases hu : r.uuid = u
    · have : rest.find? (fun r => r.uuid = u) = none := by
        rw [List.find?_eq_none]
        intro x hx
        simp only [decide_eq_true_eq]
        intro hxu
        exact hn.1 (List.mem_map.2 ⟨x, hx, hxu.trans hu.symm⟩)
      rw [this]
      simp [hu]
    · simp [hu, Ne.symm hu]

/-- **C35** A tag change on the revisions selected by `spec`:
* if the selection is invalid, or a new tag is neither manual nor in the schedule (unless forced or tags are
  being removed), it is an error and no metadata file changes;
* if some selected revision does not have the expected tags, it returns false and no metadata file changes;
* otherwise it returns true, every selected revision has the new tags (removed, if local, without tags and
  `autoremove`), and all other metadata files are unchanged. -/
theorem C35_tag_change (s : Repo) (sch : Schedule) (pd : String → Option Int) (a : Action) (spec : String)
    (tags : Finset String) (expect : Option (Finset String)) (auto force : Bool) :
    let out := s.tagsOp sch pd a.name spec tags expect auto force
    (∀ e, findRevisions ⟨s.scan.history, pd⟩ spec = .error e → out.1 = .error e ∧ out.2.files = s.files) ∧
    (∀ revs, findRevisions ⟨s.scan.history, pd⟩ spec = .ok revs →
      ((force = false ∧ a ≠ .remove ∧ ∃ t ∈ tags, isManual t = false ∧ t ∉ sch.keys) →
        (∃ e, out.1 = .error e) ∧ out.2.files = s.files) ∧
      (¬ (force = false ∧ a ≠ .remove ∧ ∃ t ∈ tags, isManual t = false ∧ t ∉ sch.keys) →
        ((∃ r ∈ revs, ∃ t, expect = some t ∧ t ≠ r.tags) → out.1 = .ok false ∧ out.2.files = s.files) ∧
        ((∀ r ∈ revs, ∀ t, expect = some t → t = r.tags) → out.1 = .ok true ∧
          (∀ r ∈ revs, onDisk out.2.files r.uuid = changed a tags auto r) ∧
          (∀ u, (∀ r ∈ revs, r.uuid ≠ u) → onDisk out.2.files u = onDisk s.files u)))) := by
  dsimp only
  refine ⟨?_, ?_⟩
  · intro e he
    unfold Repo.tagsOp
    dsimp only
    rw [he]
    exact ⟨rfl, rfl⟩
  · intro revs hrevs
    have hval : (if force = false ∧ a.name ≠ "remove" then validateTags sch tags else Except.ok ()) =
        if (force = false ∧ a ≠ .remove ∧ ∃ t ∈ tags, isManual t = false ∧ t ∉ sch.keys) then
          .error .runtime else .ok () := by
      have ha : a.name ≠ "remove" ↔ a ≠ .remove := by cases a <;> simp [Action.name]
      simp only [ha]
      by_cases h : force = false ∧ a ≠ .remove
      · rw [if_pos h]
        unfold validateTags
        by_cases hm : ∃ t ∈ tags, isManual t = false ∧ t ∉ sch.keys
        · have hne : ¬ ((scheduleTags tags).filter (fun t => t ∉ sch.keys) = ∅) := by
            obtain ⟨t, h1, h2, h3⟩ := hm
            intro he
            have : t ∈ (scheduleTags tags).filter (fun t => t ∉ sch.keys) := by
              simp [scheduleTags, h1, h2, h3]
            rw [he] at this
            simp at this
          rw [if_neg hne, if_pos ⟨h.1, h.2, hm⟩]
        · have he : (scheduleTags tags).filter (fun t => t ∉ sch.keys) = ∅ := by
            rw [Finset.filter_eq_empty_iff]
            intro t ht hk
            simp only [scheduleTags, Finset.mem_filter] at ht
            exact hm ⟨t, ht.1, ht.2, hk⟩
          rw [if_pos he, if_neg (fun hh => hm hh.2.2)]
      · rw [if_neg h, if_neg (fun hh => h ⟨hh.1, hh.2.1⟩)]
    refine ⟨?_, ?_⟩
    · intro hbad
      unfold Repo.tagsOp
      dsimp only
      rw [hrevs]
      dsimp only
      rw [hval, if_pos hbad]
      exact ⟨⟨_, rfl⟩, rfl⟩
    · intro hok
      have hnu : (revs.map Rev.uuid).Nodup := by
        have hs := findRevisions_sel (c := ⟨s.scan.history, pd⟩) (nodup_of_map_uuid s.scan_nodup) hrevs
        rw [List.nodup_map_iff_inj_on hs.2]
        intro x hx y hy hxy
        exact eq_of_uuid s.scan_nodup (hs.1 hx) (hs.1 hy) hxy
      constructor
      · rintro ⟨r, hr, t, ht, hne⟩
        unfold Repo.tagsOp
        dsimp only
        rw [hrevs]
        dsimp only
        rw [hval, if_neg hok]
        dsimp only
        rw [if_pos]
        · exact ⟨rfl, rfl⟩
        · rw [List.any_eq_true]
          exact ⟨r, hr, by rw [ht]; simpa using hne⟩
      · intro hall
        have hout : s.tagsOp sch pd a.name spec tags expect auto force =
            tagsLoop a.name tags auto revs s.scan := by
          unfold Repo.tagsOp
          dsimp only
          rw [hrevs]
          dsimp only
          rw [hval, if_neg hok]
          dsimp only
          rw [if_neg]
          rw [List.any_eq_true]
          rintro ⟨r, hr, hh⟩
          cases hx : expect with
          | none => rw [hx] at hh; simp at hh
          | some t => rw [hx] at hh; simp [hall r hr t hx] at hh
        rw [hout]
        obtain ⟨h1, h2⟩ := tagsLoop_ok a tags auto revs s.scan hnu
        refine ⟨h1, ?_, ?_⟩
        · intro r hr
          rw [h2]
          have : revs.find? (fun x => x.uuid = r.uuid) = some r := by
            cases hf : revs.find? (fun x => x.uuid = r.uuid) with
            | none =>
              rw [List.find?_eq_none] at hf
              exact absurd (decide_eq_true rfl) (hf r hr)
            | some x =>
              have hx := List.mem_of_find?_eq_some hf
              have hxu := List.find?_some hf
              simp only [decide_eq_true_eq] at hxu
              rw [List.inj_on_of_nodup_map hnu hx hr hxu]
          rw [this]
        · intro u hu
          rw [h2]
          have : revs.find? (fun x => x.uuid = u) = none := by
            rw [List.find?_eq_none]
            intro x hx
            simpa using hu x hx
          rw [this]
          rfl

/-- An action that does not exist is an error as soon as a revision is selected. -/
theorem C35_unknown_action (s : Repo) (sch : Schedule) (pd : String → Option Int) (action spec : String)
    (tags : Finset String) (auto : Bool) (r : Rev) (revs : List Rev)
    (hrevs : findRevisions ⟨s.scan.history, pd⟩ spec = .ok (r :: revs))
    (ha : action ≠ "set" ∧ action ≠ "add" ∧ action ≠ "remove") :
    (s.tagsOp sch pd action spec tags none auto true).1 = .error .value ∧
      (s.tagsOp sch pd action spec tags none auto true).2.files = s.files := by
  unfold Repo.tagsOp
  dsimp only
  rw [hrevs]
  simp [tagsLoop, actTags, ha.1, ha.2.1, ha.2.2, Repo.scan]

/-! ### Concrete cases -/

/-- Two local and one remote revision. -/
def exTags : Repo :=
  { files := [("a", ⟨false, mkRev "a" 10 {"daily"}⟩), ("b", ⟨false, mkRev "b" 20 {"daily"} "srv"⟩),
              ("c", ⟨false, mkRev "c" 30 {"daily", "weekly"}⟩)],
    history := [] }

theorem exTags_named : Named exTags.files := by
  refine ⟨by decide +kernel, ?_⟩
  intro n f hm hf
  simp only [exTags, List.mem_cons, Prod.mk.injEq, List.not_mem_nil, or_false] at hm
  rcases hm with ⟨rfl, rfl⟩ | ⟨rfl, rfl⟩ | ⟨rfl, rfl⟩ <;> rfl

/-- Test: the selection of the examples below. -/
theorem exTags_sel : findRevisions ⟨exTags.scan.history, fun _ => none⟩ "tag:daily" =
    .ok [mkRev "a" 10 {"daily"}, mkRev "b" 20 {"daily"} "srv", mkRev "c" 30 {"daily", "weekly"}] := by
  refine (findRevisions_tag _ "daily" ⟨?_, ?_⟩).trans ?_
  · repeat' (first | exact trivial | refine noSep_cons (by decide) ?_)
  · constructor <;> (intro c hc; revert hc; revert c; decide +kernel)
  · decide +kernel

/-- Test: removing `daily` with autoremove removes "a", empties the remote "b" and changes "c". -/
example : let out := exTags.tagsOp exSchedule (fun _ => none) "remove" "tag:daily" {"daily"} none true false
    out.1 = .ok true ∧ onDisk out.2.files "a" = none ∧ onDisk out.2.files "b" = some (mkRev "b" 20 ∅ "srv") ∧
      onDisk out.2.files "c" = some (mkRev "c" 30 {"weekly"}) := by
  have h := (C35_tag_change exTags exSchedule (fun _ => none) .remove "tag:daily" {"daily"} none true false).2 _ exTags_sel
  have h2 := (h.2 (by simp)).2 (by simp)
  refine ⟨h2.1, (h2.2.1 (mkRev "a" 10 {"daily"}) (by simp)).trans (by decide +kernel), (h2.2.1 (mkRev "b" 20 {"daily"} "srv") (by simp)).trans
    (by decide +kernel), (h2.2.1 (mkRev "c" 30 {"daily", "weekly"}) (by simp)).trans (by decide +kernel)⟩

/-- Test: with an expectation that "c" does not meet nothing happens. -/
example : (exTags.tagsOp exSchedule (fun _ => none) "set" "tag:daily" {"weekly"} (some {"daily"}) true false).1 =
    .ok false := by
  have h := (C35_tag_change exTags exSchedule (fun _ => none) .set "tag:daily" {"weekly"} (some {"daily"}) true false).2 _ exTags_sel
  exact ((h.2 (by decide +kernel)).1 ⟨mkRev "c" 30 {"daily", "weekly"}, by simp, {"daily"}, rfl, by decide +kernel⟩).1

example := C35_unknown_action exTags exSchedule (fun _ => none) "replace" "tag:daily" {"x"} true _ _ exTags_sel (by decide)

end Verif.Repo
