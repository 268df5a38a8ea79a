import Verif.Props.Commands
import Verif.Props.Damage
/-!
# Properties C67, C69 and C73: exit codes, continued

Restores from damaged repositories, commands without a usable configuration, `gc --expire` and commands that do not get
their lock.
-/
namespace Verif.Commands
open Verif Verif.Chunked Verif.Spec Verif.Rbd Verif.Repo Verif.Files Verif.Backup Verif.Cli Verif.Repo.Spec

/-- **C67** Without a readable configuration every command gives 1 and changes nothing. -/
theorem C67_no_config (env : Env) (x : Outside) (hx : x.sch = none) (dry : Bool) (c : Cmd) (s : Sys) :
    (main env x dry c s).1 = 1 ∧ Same s (main env x dry c s).2 := by
  simp only [main, hx]
  exact ⟨trivial, ⟨rfl, rfl, rfl⟩, rfl⟩

/-- **C67** `backy restore` of a complete local revision after any history, with any damage to the stored data: the exit code is 0 or 1;
if it is 0 the target is exactly the image the snapshot held; it is 0 if the mapping file and the chunks of the revision are
readable, whatever else is damaged. -/
theorem C67_restore_code (env : Env) (x : Outside) (sch : Schedule) (hx : x.sch = some sch) (dry : Bool) (spec : String) (s0 s : Sys)
    (h0 : Initial s0) (hlog : s0.src.w.log = []) (hs : Damaged env s0 s) (hcoll : CollFree env.H s.src.w.log) (r : Rev)
    (hr : find ⟨s.src.repo.scan.history, x.pd⟩ spec = .ok r) (hd : onDisk s.src.repo.files r.uuid = some r) (hl : r.server = "") (hc : r.clean = true) :
    let code := (main env x dry (.restore spec) s).1
    let target := (restoreCmd env x spec s.connect).2
    (code = 0 ∨ code = 1) ∧
    (code = 0 → ∃ c, s.ceph.taken.get? r.uuid = some c ∧ target = some c) ∧
    (∀ m, s.src.w.metas.get? r.uuid = some (some m) → (∀ h ∈ m.mapping.values, Readable env s.src.w h) → code = 0) := by
  dsimp only
  have hr' : find ⟨s.connect.src.repo.history, x.pd⟩ spec = .ok r := hr
  have hm : r ∈ s.connect.src.repo.history :=
    find_mem (c := ⟨s.src.repo.scan.history, x.pd⟩) (nodup_of_map_uuid (Repo.scan_nodup s.src.repo)) hr
  have hf : Backup.findByUuid s.connect.connect.src.repo r.uuid = .ok r := findByUuid_ok (Repo.scan_nodup s.connect.src.repo) hm
  have h1 := C74_restore_file env s0 s h0 hlog hs hcoll r.uuid r hd hl hc x.target
  have h2 : ∀ m, s.src.w.metas.get? r.uuid = some (some m) → (∀ h ∈ m.mapping.values, Readable env s.src.w h) →
      (restore env s.connect.src.w r x.target).1 = .ok () := by
    intro m hm hi
    obtain ⟨c, _, c2, _⟩ := C75_intact_restores env s0 s h0 hlog hs hcoll r.uuid r hd hl hc m hm hi
    rw [c2]
  have e : s.connect.connect.src.w = s.connect.src.w := rfl
  simp only [main, hx, Cmd.run, restoreCmd, hr', mainRestore, hf, e]
  generalize restore env s.connect.src.w r x.target = g at *
  obtain ⟨g1, g2⟩ := g
  cases g1 with
  | error e =>
    refine ⟨.inr rfl, fun h => ?_, fun m hm hi => ?_⟩
    · simp [exitCode, Ret.code] at h
    · have := h2 m hm hi; cases this
  | ok a =>
    refine ⟨.inl rfl, fun _ => ?_, fun _ _ _ => rfl⟩
    rcases h1 with ⟨e, h1⟩ | ⟨c, c1, c2⟩
    · cases h1
    · cases c2; exact ⟨c, c1, rfl⟩

/-- **C69** (partial: only if the lock is held) A foreground backup that does not get the lock at its start gives 1 and changes nothing. -/
theorem C69_refused_partial (env : Env) (x : Outside) (sch : Schedule) (hx : x.sch = some sch) (dry : Bool) (tags : String) (force : Bool)
    (s : Sys) (hb : x.busy = true) :
    (main env x dry (.backup tags force) s).1 = 1 ∧ Same s (main env x dry (.backup tags force) s).2 := by
  simp only [main, hx, Cmd.run, backupCmd, hb, if_true, exitCode]
  exact ⟨trivial, ⟨rfl, rfl, rfl⟩, rfl⟩

/-- **C69** (partial: only with invalid tags) A foreground backup without `--force` with a tag that neither begins with `manual:` nor is in the
schedule gives 1, makes no revision, and no incomplete local revision is left. -/
theorem C69_bad_tags_partial (env : Env) (x : Outside) (sch : Schedule) (hx : x.sch = some sch) (dry : Bool) (tags : String)
    (s : Sys) (hn : Named s.src.repo.files) (hb : x.busy = false) (t : String) (ht : t ∈ parseTags tags)
    (hm : ¬ "manual:".toList <+: t.toList) (hs : t ∉ sch.keys) :
    let out := main env x dry (.backup tags false) s
    out.1 = 1 ∧ SameData s out.2 ∧ ∀ u, onDisk out.2.src.repo.files u =
      (onDisk s.src.repo.files u).filter (fun r => !(decide (r.server = "") && !r.clean)) := by
  dsimp only
  have hv : validateTags sch (parseTags tags) = .error .runtime := by
    unfold validateTags
    rw [if_neg]
    intro he
    have : t ∈ (scheduleTags (parseTags tags)).filter (fun t => t ∉ sch.keys) := by
      simp only [Finset.mem_filter, scheduleTags]
      refine ⟨⟨ht, ?_⟩, hs⟩
      unfold isManual startsWith
      rw [← Bool.not_eq_true, List.isPrefixOf_iff_prefix]
      exact hm
    rw [he] at this
    cases this
  simp only [main, hx, Cmd.run, backupCmd, hb, Bool.false_eq_true, if_false, hv, exitCode]
  exact ⟨trivial, ⟨rfl, rfl, rfl⟩, fun u => Conc.C39_clean_current_partial s.src.repo hn u⟩

/-- **C73** (partial: only these cases) `backy gc --expire` without `--local`, or while somebody else holds the backup lock, gives 1 and
changes nothing. -/
theorem C73_expire_refused_partial (env : Env) (x : Outside) (dry loc : Bool) (s : Sys) (h : loc = false ∨ x.busy = true) :
    (main env x dry (.gc true loc) s).1 = 1 ∧ Same s (main env x dry (.gc true loc) s).2 := by
  unfold main
  cases x.sch with
  | none => exact ⟨rfl, ⟨rfl, rfl, rfl⟩, rfl⟩
  | some sch =>
    dsimp only [Cmd.run, gcCmd]
    cases loc with
    | false => exact ⟨rfl, ⟨rfl, rfl, rfl⟩, rfl⟩
    | true =>
      rcases h with h | h
      · cases h
      · simp only [expireCmd, h, if_true, Bool.true_eq_false, and_false, if_false, exitCode]
        exact ⟨trivial, ⟨rfl, rfl, rfl⟩, rfl⟩

/-- **C73** (partial: if it can be carried out) `backy gc --expire --local` when nobody holds a lock: it gives 0 if the expiry can be carried out,
the revisions are those expiry leaves, and - if the mapping of every local revision left can be read - exactly the chunks used by
one of these are left. -/
theorem C73_expire_partial (env : Env) (x : Outside) (sch : Schedule) (hx : x.sch = some sch) (dry : Bool) (s : Sys) (hb : x.busy = false)
    (hp : x.busyPurge = false) (l : List Rev) (he : (sch.expire x.pd x.now s.src.repo.scan).1 = .ok l) :
    let left := { s with src := { s.src with repo := (sch.expire x.pd x.now s.src.repo.scan).2 } }
    let out := main env x dry (.gc true true) s
    out.1 = 0 ∧ out.2.src.repo.files = left.src.repo.files ∧
    ((∀ r ∈ left.connect.src.repo.localHistory, ∃ m, s.src.w.metas.get? r.uuid = some (some m)) →
      (∀ h, Referenced left.connect.src h → out.2.src.w.chunks.get? h = s.src.w.chunks.get? h) ∧
      (∀ h, ¬ Referenced left.connect.src h → out.2.src.w.chunks.get? h = none)) := by
  dsimp only
  have he' : (sch.expire x.pd x.now s.connect.src.repo).1 = .ok l := he
  have e2 : (sch.expire x.pd x.now s.src.repo.scan) = (sch.expire x.pd x.now s.connect.src.repo) := rfl
  rw [e2]
  simp only [main, hx, Cmd.run, gcCmd, expireCmd, hb, Bool.true_eq_false, and_false, if_false, if_true, Bool.false_eq_true]
  generalize sch.expire x.pd x.now s.connect.src.repo = g at *
  obtain ⟨g1, g2⟩ := g
  dsimp only at he'
  subst he'
  simp only [gcEnd, mainGc, hp, exitCode, Ret.code, Bool.false_eq_true, if_false]
  have hrepo := gc_repo ({ s.connect with src := { s.connect.src with repo := g2 } } : Sys).connect.src
  refine ⟨rfl, ?_, ?_⟩
  · generalize ({ s.connect with src := { s.connect.src with repo := g2 } } : Sys).connect.src.gc = k at *
    obtain ⟨k1, k2⟩ := k
    cases k1 <;> (dsimp only at *; rw [hrepo]; rfl)
  · intro hm
    have hok := (C08_gc_succeeds_iff ({ s.connect with src := { s.connect.src with repo := g2 } } : Sys).connect.src).1.2 hm
    obtain ⟨h1, h2, _⟩ := C08_gc_exact ({ s.connect with src := { s.connect.src with repo := g2 } } : Sys).connect.src hok
    generalize ({ s.connect with src := { s.connect.src with repo := g2 } } : Sys).connect.src.gc = k at *
    obtain ⟨k1, k2⟩ := k
    dsimp only at hok
    subst hok
    exact ⟨h1, h2⟩

/-- The hypotheses are met: a bitrotten repository from which the intact revision is restored with 0 and the damaged one gives 1;
an expiry; a bad tag. -/
example : (main Test.env exOutside false (.restore "a") exBitrot).1 = 1 ∧ (main Test.env exOutside false (.restore "b") exBitrot).1 = 0 ∧
    (main Test.env exOutside false (.backup "dayly" false) exTagged).1 = 1 ∧ "dayly" ∈ parseTags "dayly" ∧ "dayly" ∉ exSchedule.keys ∧
    (main Test.env { exOutside with target := none } false (.restore "a") exChanged).1 = 0 ∧
    (exSchedule.expire exOutside.pd exOutside.now exTagged.src.repo.scan).1.isOk = true ∧
    (main Test.env exOutside false (.gc true true) exTagged).1 = 0 := by
  decide +kernel

/-! ### The theorems of this file applied -/

/-- C67_no_config -/
example := C67_no_config Test.env { exOutside with sch := none } rfl false (.repo (.rm "a")) exTagged

/-- C67_restore_code: the damaged revision. -/
example := C67_restore_code Test.env exOutside exSchedule rfl false "a" exNew exBitrot exNew_initial rfl exBitrot_damaged (Test.collFree _)
  (finished (idealRbd [] []) (newRev "a" 10 {"daily"})) (by decide +kernel) (by decide +kernel) (by decide +kernel) (by decide +kernel)

/-- C69_refused_partial, C69_bad_tags_partial -/
example := C69_refused_partial Test.env { exOutside with busy := true } exSchedule rfl false "daily" false exTagged rfl
example := C69_bad_tags_partial Test.env exOutside exSchedule rfl false "dayly" exTagged exTags_named rfl "dayly" (by decide +kernel)
  (by decide +kernel) (by decide +kernel)

/-- C73_expire_refused_partial, C73_expire_partial -/
example := C73_expire_refused_partial Test.env exOutside false false exTagged (.inl rfl)
example (l : List Rev) (hl : (exSchedule.expire exOutside.pd exOutside.now exTagged.src.repo.scan).1 = .ok l) :=
  C73_expire_partial Test.env exOutside exSchedule rfl false exTagged rfl rfl l hl

/-- **C67** `backy tags`: the exit code is 0 exactly if the specification is valid, nobody holds the lock, the tags are known (or need not be:
`--force`, removing) and every selected revision has the expected tags, if any are given. -/
theorem C67_tags_code (env : Env) (x : Outside) (sch : Schedule) (hx : x.sch = some sch) (dry : Bool) (a : Action) (auto : Bool)
    (expect : Option String) (spec text : String) (force : Bool) (s : Sys) :
    (main env x dry (.repo (.tags a.name auto expect spec text force)) s).1 = 0 ↔
      x.busy = false ∧ ∃ revs, selects x s spec = .ok revs ∧
        (force = true ∨ a = .remove ∨ ∀ t ∈ parseTags text, "manual:".toList <+: t.toList ∨ t ∈ sch.keys) ∧
        (∀ e, expect = some e → ∀ r ∈ revs, r.tags = parseTags e) := by
  have hman : ∀ t : String, isManual t = true ↔ "manual:".toList <+: t.toList := by
    intro t
    simp only [isManual, startsWith, List.isPrefixOf_iff_prefix]
  cases hb : x.busy with
  | true =>
    simp only [main, hx, Cmd.run, RCmd.run, ifFree, hb, if_true, tagsRet, exitCode]
    simp
  | false =>
    have hC := C35_tag_change s.connect.src.repo sch x.pd a spec (parseTags text) (expect.map parseTags) auto force
    have hss : s.connect.src.repo.scan.history = s.src.repo.scan.history := rfl
    have ho' : (main env x dry (.repo (.tags a.name auto expect spec text force)) s).1 =
        exitCode (tagsRet (s.connect.src.repo.tagsOp sch x.pd a.name spec (parseTags text) (expect.map parseTags) auto force)).1 := by
      simp only [main, hx, Cmd.run, RCmd.run, ifFree, hb, Bool.false_eq_true, if_false]
    rw [ho']
    generalize s.connect.src.repo.tagsOp sch x.pd a.name spec (parseTags text) (expect.map parseTags) auto force = g at *
    obtain ⟨g1, g2⟩ := g
    dsimp only at hC
    obtain ⟨c1, c2⟩ := hC
    rw [hss] at c1 c2
    cases hr : selects x s spec with
    | error e =>
      have h1 := (c1 e hr).1
      subst h1
      constructor
      · intro h; cases h
      · rintro ⟨_, revs, h, _⟩; cases h
    | ok revs =>
      obtain ⟨c3, c4⟩ := c2 revs hr
      by_cases hv : force = false ∧ a ≠ .remove ∧ ∃ t ∈ parseTags text, isManual t = false ∧ t ∉ sch.keys
      · obtain ⟨⟨e, he⟩, _⟩ := c3 hv
        subst he
        constructor
        · intro h; cases h
        · rintro ⟨_, revs', h, h2, _⟩
          obtain ⟨v1, v2, t, v3, v4, v5⟩ := hv
          rcases h2 with h2 | h2 | h2
          · rw [v1] at h2; cases h2
          · exact absurd h2 v2
          · rcases h2 t v3 with h2 | h2
            · rw [(hman t).2 h2] at v4; cases v4
            · exact absurd h2 v5
      · obtain ⟨c5, c6⟩ := c4 hv
        by_cases hm : ∃ r ∈ revs, ∃ t, expect.map parseTags = some t ∧ t ≠ r.tags
        · have h1 := (c5 hm).1
          subst h1
          constructor
          · intro h; cases h
          · rintro ⟨_, revs', h, _, h3⟩
            cases h
            obtain ⟨r, hr1, t, ht, hne⟩ := hm
            obtain ⟨e, he, rfl⟩ := Option.map_eq_some_iff.1 ht
            exact absurd (h3 e he r hr1).symm hne
        · have hm' : ∀ r ∈ revs, ∀ t, expect.map parseTags = some t → t = r.tags := by
            intro r hr t ht
            by_contra hne
            exact hm ⟨r, hr, t, ht, hne⟩
          have h1 := (c6 hm').1
          subst h1
          refine ⟨fun _ => ⟨rfl, revs, rfl, ?_, ?_⟩, fun _ => rfl⟩
          · by_contra hcon
            simp only [not_or, not_forall] at hcon
            obtain ⟨n1, n2, t, n3, n4, n5⟩ := hcon
            refine hv ⟨by simpa using n1, n2, t, n3, ?_, n5⟩
            cases hq : isManual t with
            | false => rfl
            | true => exact absurd ((hman t).1 hq) n4
          · intro e he r hr1
            exact (hm' r hr1 _ (by rw [he]; rfl)).symm

/-- Test (C67): adding a known tag succeeds, a wrong expectation does not. -/
example : (main Test.env exOutside false (.repo (.tags Action.add.name false none "tag:daily" "manual:x" false)) exTagged).1 = 0 ∧
    (main Test.env exOutside false (.repo (.tags Action.add.name false (some "weekly") "tag:daily" "manual:x" false)) exTagged).1 ≠ 0 := by
  refine ⟨(C67_tags_code Test.env exOutside exSchedule rfl false .add false none "tag:daily" "manual:x" false exTagged).2
      ⟨rfl, _, exTagged_sel, .inr (.inr ?_), fun e he => by cases he⟩, fun h => ?_⟩
  · have : parseTags "manual:x" = {"manual:x"} := by decide +kernel
    rw [this]
    intro t ht
    rw [Finset.mem_singleton] at ht
    subst ht
    exact .inl (by decide +kernel)
  · obtain ⟨_, revs, h1, _, h2⟩ :=
      (C67_tags_code Test.env exOutside exSchedule rfl false .add false (some "weekly") "tag:daily" "manual:x" false exTagged).1 h
    rw [exTagged_sel] at h1
    cases h1
    exact absurd (h2 "weekly" rfl _ List.mem_cons_self) (by decide +kernel)

end Verif.Commands
