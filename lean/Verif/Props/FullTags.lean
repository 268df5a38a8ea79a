import Verif.Props.FullOps
import Verif.Props.Tags
import Verif.Props.Defaults
/-!
# C144: changing tags by hand on a disk that may be full
-/
namespace Verif.FullDisk
open Verif Verif.Repo Verif.Repo.Spec Verif.Backup

/-- Every selected revision is on the disk as before or with its new tags (or removed), everything else as before. -/
def OldOrNew (a : Action) (tags : Finset String) (auto : Bool) (revs : List Rev) (before after : Dict String RevFile) : Prop :=
  (∀ r ∈ revs, onDisk after r.uuid = onDisk before r.uuid ∨ onDisk after r.uuid = changed a tags auto r) ∧
  ∀ u, (∀ r ∈ revs, r.uuid ≠ u) → onDisk after u = onDisk before u

theorem tagsLoop_cut (d : Drive) (a : Action) (tags : Finset String) (auto : Bool) : ∀ (revs : List Rev) (n : Nat) (s : Repo),
    (revs.map Rev.uuid).Nodup →
    (∃ m, tagsLoop d a.name tags auto revs n s = (.ok (), m, (Repo.tagsLoop a.name tags auto revs s).2)) ∨
    (tagsLoop d a.name tags auto revs n s).1 = .error .os ∧
      OldOrNew a tags auto revs s.files (tagsLoop d a.name tags auto revs n s).2.2.files
  | [], n, s, _ => .inl ⟨n, rfl⟩
  | r :: rest, n, s, hn => by
    rw [List.map_cons, List.nodup_cons] at hn
    have hstep : Repo.tagsLoop a.name tags auto (r :: rest) s =
        Repo.tagsLoop a.name tags auto rest (if a.result r.tags tags = ∅ ∧ auto = true then
          ((s.assign { r with tags := a.result r.tags tags }).remove { r with tags := a.result r.tags tags })
        else (s.store { r with tags := a.result r.tags tags })) := by
      rw [Repo.tagsLoop, actTags_name]
      dsimp only
      split <;> rfl
    have hdisk := onDisk_tagsStep a tags auto r s
    rw [hstep]
    simp only [tagsLoop, actTags_name]
    generalize hy : (if a.result r.tags tags = ∅ ∧ auto = true then
          ((s.assign { r with tags := a.result r.tags tags }).remove { r with tags := a.result r.tags tags })
        else (s.store { r with tags := a.result r.tags tags })) = y at *
    generalize hx : (if a.result r.tags tags = ∅ ∧ auto = true then
        remove d n { r with tags := a.result r.tags tags } (s.assign { r with tags := a.result r.tags tags })
          else put d n { r with tags := a.result r.tags tags } s) = x at *
    have hput : ∀ r s, (put d n r s).1 = .error .os ∧ (put d n r s).2.2.files = s.files ∨ ∃ m, put d n r s = (.ok (), m, s.store r) := by
      intro r s
      unfold put
      split
      · exact .inr ⟨_, rfl⟩
      · exact .inl ⟨rfl, rfl⟩
    have key : (x.1 = .error .os ∧ x.2.2.files = s.files) ∨ ∃ m, x = (.ok (), m, y) := by
      rw [← hx, ← hy]
      by_cases h : a.result r.tags tags = ∅ ∧ auto = true
      · rw [if_pos h, if_pos h]
        unfold remove Repo.remove
        by_cases hs : r.server = ""
        · rw [if_neg (fun hh => hh hs), if_neg (fun hh => hh.2 hs)]
          exact .inr ⟨_, rfl⟩
        · rw [if_pos hs, if_pos ⟨rfl, hs⟩]
          exact hput _ _
      · rw [if_neg h, if_neg h]
        exact hput _ _
    rcases key with ⟨h1, h2⟩ | ⟨m, rfl⟩
    · obtain ⟨x1, x2, x3⟩ := x
      dsimp only at h1 h2
      subst h1
      refine .inr ⟨rfl, fun q _ => .inl ?_, fun u _ => ?_⟩
      · show onDisk x3.files _ = _
        rw [h2]
      · show onDisk x3.files _ = _
        rw [h2]
    · dsimp only
      rcases tagsLoop_cut d a tags auto rest m y hn.2 with h | ⟨h1, h2, h3⟩
      · exact .inl h
      · refine .inr ⟨h1, fun q hq => ?_, fun u hu => ?_⟩
        · rcases List.mem_cons.1 hq with rfl | hq
          · refine .inr ?_
            rw [h3 q.uuid (fun x hx e => hn.1 (List.mem_map.2 ⟨x, hx, e⟩)), hdisk, if_pos rfl]
          · refine (h2 q hq).imp (fun e => ?_) id
            rw [e, hdisk, if_neg (fun e => hn.1 (List.mem_map.2 ⟨q, hq, e⟩))]
        · rw [h3 u (fun x hx => hu x (by simp [hx])), hdisk, if_neg (fun e => hu r (by simp) e.symm)]

/-- **C144** Changing tags on a disk that may become full at any write does what it does on a disk with room - with the same answer -, or it
fails with an error, and each of the selected revisions has its old or its new tags, and everything else is unchanged. -/
theorem C144_tags (d : Drive) (s : Repo) (sch : Schedule) (pd : String → Option Int) (a : Action) (spec : String)
    (tags : Finset String) (expect : Option (Finset String)) (auto force : Bool) :
    tagsOp d s sch pd a.name spec tags expect auto force = s.tagsOp sch pd a.name spec tags expect auto force ∨
    (tagsOp d s sch pd a.name spec tags expect auto force).1 = .error .os ∧
      ∃ revs, findRevisions ⟨s.scan.history, pd⟩ spec = .ok revs ∧
        OldOrNew a tags auto revs s.files (tagsOp d s sch pd a.name spec tags expect auto force).2.files := by
  unfold tagsOp Repo.tagsOp
  dsimp only
  cases hrevs : findRevisions ⟨s.scan.history, pd⟩ spec with
  | error e => exact .inl rfl
  | ok revs =>
    have hnu : (revs.map Rev.uuid).Nodup := by
      have hs := findRevisions_sel (c := ⟨s.scan.history, pd⟩) (nodup_of_map_uuid s.scan_nodup) hrevs
      rw [List.nodup_map_iff_inj_on hs.2]
      intro x hx y hy hxy
      exact eq_of_uuid s.scan_nodup (hs.1 hx) (hs.1 hy) hxy
    dsimp only
    generalize (if force = false ∧ a.name ≠ "remove" then validateTags sch tags else .ok ()) = v
    cases v with
    | error e => exact .inl rfl
    | ok v =>
      dsimp only
      generalize (revs.any (fun r => match expect with
        | none => false
        | some t => decide (t ≠ r.tags))) = b
      cases b with
      | true => exact .inl rfl
      | false =>
        simp only [Bool.false_eq_true, if_false]
        have h1 := (tagsLoop_ok a tags auto revs s.scan hnu).1
        rcases tagsLoop_cut d a tags auto revs 0 s.scan hnu with ⟨m, e⟩ | ⟨e, h⟩
        · rw [e]
          generalize Repo.tagsLoop a.name tags auto revs s.scan = y at *
          obtain ⟨y1, y2⟩ := y
          dsimp only at h1
          subst h1
          exact .inl rfl
        · generalize tagsLoop d a.name tags auto revs 0 s.scan = x at *
          obtain ⟨x1, x2, x3⟩ := x
          dsimp only at e
          subst e
          exact .inr ⟨rfl, revs, rfl, h⟩

theorem result_idem (a : Action) (t tags : Finset String) : a.result (a.result t tags) tags = a.result t tags := by
  cases a <;> ext x <;> simp [Action.result]

theorem changed_again {a : Action} {tags : Finset String} {auto : Bool} {r x : Rev} (h : changed a tags auto r = some x) :
    changed a tags auto x = some x := by
  unfold changed at *
  split at h
  · cases h
  · rename_i hc
    cases h
    dsimp only
    rw [if_neg (by rw [result_idem]; exact hc), result_idem]

theorem put_named (d : Drive) (n : Nat) (r : Rev) {s : Repo} (h : Named s.files) : Named (put d n r s).2.2.files := by
  unfold put
  split
  · exact h.set r
  · exact h

theorem tagsLoop_named (d : Drive) (action : String) (tags : Finset String) (auto : Bool) : ∀ (l : List Rev) (n : Nat) (s : Repo),
    Named s.files → Named (tagsLoop d action tags auto l n s).2.2.files
  | [], _, _, h => h
  | r :: l, n, s, h => by
    simp only [tagsLoop]
    cases actTags action r.tags tags with
    | error e => exact h
    | ok t =>
      dsimp only
      have hx : Named (if t = ∅ ∧ auto = true then remove d n { r with tags := t } (s.assign { r with tags := t })
          else put d n { r with tags := t } s).2.2.files := by
        split
        · unfold remove
          split
          · exact put_named d n _ h
          · exact h.erase _
        · exact put_named d n _ h
      generalize (if t = ∅ ∧ auto = true then remove d n { r with tags := t } (s.assign { r with tags := t })
          else put d n { r with tags := t } s) = x at *
      obtain ⟨x1, x2, x3⟩ := x
      cases x1 with
      | error e => exact hx
      | ok w => exact tagsLoop_named d action tags auto l x2 x3 hx

theorem tagsOp_named (d : Drive) (s : Repo) (hn : Named s.files) (sch : Schedule) (pd : String → Option Int) (action spec : String)
    (tags : Finset String) (expect : Option (Finset String)) (auto force : Bool) :
    Named (tagsOp d s sch pd action spec tags expect auto force).2.files := by
  unfold tagsOp
  dsimp only
  cases findRevisions ⟨s.scan.history, pd⟩ spec with
  | error e => exact hn
  | ok revs =>
    dsimp only
    generalize (revs.any (fun r => match expect with
      | none => false
      | some t => decide (t ≠ r.tags))) = b
    split
    · exact hn
    · split
      · exact hn
      · have h := tagsLoop_named d action tags auto revs 0 s.scan hn
        generalize tagsLoop d action tags auto revs 0 s.scan = x at *
        obtain ⟨x1, x2, x3⟩ := x
        cases x1 <;> exact h

/-- **C144** After such an error the same command, on a disk with room, finishes what was begun: if it selects, of the revisions that are
left, the same as the first time, then it succeeds and afterwards the same is on the disk as if nothing had failed. -/
theorem C144_again (d : Drive) (s : Repo) (hn : Named s.files) (sch : Schedule) (pd : String → Option Int) (a : Action) (spec : String)
    (tags : Finset String) (auto force : Bool) (revs : List Rev) (hrevs : findRevisions ⟨s.scan.history, pd⟩ spec = .ok revs)
    (h1 : (s.tagsOp sch pd a.name spec tags none auto force).1 = .ok true)
    (s' : Repo) (hs' : s' = ⟨(tagsOp d s sch pd a.name spec tags none auto force).2.files, [], []⟩)
    (revs' : List Rev) (hrevs' : findRevisions ⟨s'.scan.history, pd⟩ spec = .ok revs')
    (hsame : ∀ x ∈ s'.scan.history, x ∈ revs' ↔ ∃ r ∈ revs, r.uuid = x.uuid) (u : String) :
    (s'.tagsOp sch pd a.name spec tags none auto force).1 = .ok true ∧
    onDisk (s'.tagsOp sch pd a.name spec tags none auto force).2.files u =
      onDisk (s.tagsOp sch pd a.name spec tags none auto force).2.files u := by
  have hn' : Named s'.files := by rw [hs']; exact tagsOp_named d s hn sch pd a.name spec tags none auto force
  obtain ⟨b1, b2⟩ := (C35_tag_change s sch pd a spec tags none auto force).2 revs hrevs
  obtain ⟨b1', b2'⟩ := (C35_tag_change s' sch pd a spec tags none auto force).2 revs' hrevs'
  have hok : ¬ (force = false ∧ a ≠ .remove ∧ ∃ t ∈ tags, isManual t = false ∧ t ∉ sch.keys) := by
    intro h
    obtain ⟨⟨e, he⟩, _⟩ := b1 h
    rw [h1] at he
    cases he
  obtain ⟨-, c2, c3⟩ := (b2 hok).2 (by simp)
  obtain ⟨d1, d2, d3⟩ := (b2' hok).2 (by simp)
  have hold : OldOrNew a tags auto revs s.files s'.files := by
    rw [hs']
    rcases C144_tags d s sch pd a spec tags none auto force with e | ⟨-, q, e, h⟩
    · dsimp only
      rw [e]
      exact ⟨fun r hr => .inr (c2 r hr), c3⟩
    · rw [hrevs] at e
      cases e
      exact h
  refine ⟨d1, ?_⟩
  have hin : ∀ r ∈ revs, r ∈ s.scan.history := fun r hr =>
    (findRevisions_sel (c := ⟨s.scan.history, pd⟩) (nodup_of_map_uuid s.scan_nodup) hrevs).1 hr
  have hin' : ∀ r ∈ revs', r ∈ s'.scan.history := fun r hr =>
    (findRevisions_sel (c := ⟨s'.scan.history, pd⟩) (nodup_of_map_uuid s'.scan_nodup) hrevs').1 hr
  by_cases hu : ∃ r ∈ revs, r.uuid = u
  · obtain ⟨r, hr, rfl⟩ := hu
    rw [c2 r hr]
    cases hx : onDisk s'.files r.uuid with
    | none =>
      have : changed a tags auto r = none := by
        rcases hold.1 r hr with e | e
        · rw [hx, (Repo.scan_mem hn r).1 (hin r hr)] at e
          cases e
        · rw [← e, hx]
      rw [this, d3 r.uuid, hx]
      intro x hx' e
      have := (Repo.scan_mem hn' x).1 (hin' x hx')
      rw [e, hx] at this
      cases this
    | some x =>
      have hxu : x.uuid = r.uuid := onDisk_uuid hn' hx
      have hm : x ∈ revs' := (hsame x ((Repo.scan_mem hn' x).2 (by rw [hxu]; exact hx))).2 ⟨r, hr, hxu.symm⟩
      have := d2 x hm
      rw [hxu] at this
      rw [this]
      rcases hold.1 r hr with e | e
      · rw [hx, (Repo.scan_mem hn r).1 (hin r hr)] at e
        cases e
        rfl
      · rw [hx] at e
        rw [changed_again e.symm, e]
  · have hu' : ∀ r ∈ revs, r.uuid ≠ u := fun r hr e => hu ⟨r, hr, e⟩
    rw [c3 u hu', d3 u, hold.2 u hu']
    intro x hx e
    obtain ⟨r, hr, h⟩ := (hsame x (hin' x hx)).1 hx
    exact hu' r hr (h.trans e)

/-! ### Concrete cases -/

/-- The second write fails. -/
def exSecond : Drive := fun n => if n = 1 then .failed else .done

/-- Test (C144): every revision gets the tag "manual:keep"; the disk is full after the first. -/
example : (match (tagsOp exSecond exExpire exSchedule (fun _ => none) "set" "all" {"manual:keep"} none false false).1 with
      | .error e => decide (e = .os)
      | .ok _ => false) = true ∧
    ((tagsOp exSecond exExpire exSchedule (fun _ => none) "set" "all" {"manual:keep"} none false false).2.files.map
      (fun e => (e.1, decide (e.2.rev.tags = {"manual:keep"})))) =
      [("a", true), ("b", false), ("c", false), ("d", false), ("e", false)] := by decide +kernel

/-- What is left by it. -/
def exHalf : Repo := ⟨(tagsOp exSecond exExpire exSchedule (fun _ => none) "set" "all" {"manual:keep"} none false false).2.files, [], []⟩

/-- Test (C144): the same command again. -/
example (u : String) : onDisk (exHalf.tagsOp exSchedule (fun _ => none) "set" "all" {"manual:keep"} none false false).2.files u =
    onDisk (exExpire.tagsOp exSchedule (fun _ => none) "set" "all" {"manual:keep"} none false false).2.files u := by
  have hf : ∀ s : Repo, findRevisions ⟨s.scan.history, fun _ => none⟩ "all" = .ok s.scan.history := fun s => Commands.find_all _
  have h1 := (((C35_tag_change exExpire exSchedule (fun _ => none) .set "all" {"manual:keep"} none false false).2 _ (hf _)).2
    (by decide +kernel)).2 (by simp) |>.1
  refine (C144_again exSecond exExpire exExpire_named exSchedule (fun _ => none) .set "all" {"manual:keep"} false false _ (hf _) h1 exHalf rfl
    _ (hf _) (fun x hx => ⟨fun _ => ?_, fun _ => hx⟩) u).2
  exact (by decide +kernel : ∀ x ∈ exHalf.scan.history, ∃ r ∈ exExpire.scan.history, r.uuid = x.uuid) x hx

end Verif.FullDisk
