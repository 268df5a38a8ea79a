import Verif.Model.Commands
import Verif.Props.Tags
import Verif.Props.RevExpr
import Verif.Props.Conc
import Verif.Props.Files
import Verif.Props.Outcome
import Verif.Proofs.RevText
/-!
# Properties C67 to C73: the commands of `backy`
-/
namespace Verif.Commands
open Verif Verif.Chunked Verif.Spec Verif.Rbd Verif.Repo Verif.Files Verif.Backup Verif.Cli Verif.Repo.Spec

/-- Chunks, mapping files, snapshots and the image are the same. -/
def SameData (a b : Sys) : Prop :=
  a.src.w.chunks = b.src.w.chunks ∧ a.src.w.metas = b.src.w.metas ∧ a.ceph = b.ceph

/-- Nothing outside the memory of the processes differs. -/
def Same (a b : Sys) : Prop := SameData a b ∧ a.src.repo.files = b.src.repo.files

/-- The revisions a specification selects in the directory. -/
def selects (x : Outside) (s : Sys) (spec : String) : Except PyErr (List Rev) :=
  findRevisions ⟨s.src.repo.scan.history, x.pd⟩ spec

theorem selects_nodup {x : Outside} {s : Sys} {spec : String} {revs : List Rev} (h : selects x s spec = .ok revs) :
    (∀ r ∈ revs, r ∈ s.src.repo.scan.history) ∧ (revs.map Rev.uuid).Nodup := by
  have hn := Repo.scan_nodup s.src.repo
  obtain ⟨h1, h2⟩ := C37_results_from_history ⟨s.src.repo.scan.history, x.pd⟩ (nodup_of_map_uuid hn) spec revs h
  refine ⟨h1, ?_⟩
  rw [List.nodup_map_iff_inj_on h2]
  intro a ha b hb hab
  exact eq_of_uuid hn (h1 a ha) (h1 b hb) hab

theorem find_uuid {l : List Rev} (hn : (l.map Rev.uuid).Nodup) {r : Rev} (hr : r ∈ l) :
    l.find? (fun y => decide (y.uuid = r.uuid)) = some r := by
  cases hq : l.find? (fun y => decide (y.uuid = r.uuid)) with
  | none =>
    rw [List.find?_eq_none] at hq
    have := hq r hr
    simp at this
  | some y =>
    have h1 := List.mem_of_find?_eq_some hq
    have h2 := List.find?_some hq
    rw [eq_of_uuid hn h1 hr (by simpa using h2)]

theorem find_uuid_none {l : List Rev} {u : String} (h : ∀ r ∈ l, r.uuid ≠ u) : l.find? (fun y => decide (y.uuid = u)) = none := by
  rw [List.find?_eq_none]
  intro y hy
  simpa using h y hy

/-- What a single lookup finds is in the history. -/
theorem find_mem {c : Ctx} (hH : c.history.Nodup) {spec : String} {r : Rev} (h : find c spec = .ok r) : r ∈ c.history := by
  unfold find at h
  dsimp only at h
  split at h
  · cases h
  · refine tryFinds_mem ?_ h
    intro e he r hr
    simp only [List.mem_cons, List.not_mem_nil, or_false] at he
    rcases he with rfl | rfl | rfl | rfl
    · exact findByNumber_mem hr
    · exact findByUuid_mem hr
    · exact findByTag_mem hr
    · unfold findByFunction at hr
      split at hr
      · cases hf : findRevisions c (String.ofList (strip spec.toList)) with
        | error e => rw [hf] at hr; cases hr
        | ok l =>
          rw [hf] at hr
          dsimp only at hr
          cases hh : l.head? with
          | none => rw [hh] at hr; cases hr
          | some y =>
            rw [hh] at hr
            cases hr
            exact (C37_results_from_history c hH _ l hf).1 r (List.mem_of_head? hh)
      · cases hr

theorem findByUuid_ok {repo : Repo} (hn : (repo.history.map Rev.uuid).Nodup) {r : Rev} (hr : r ∈ repo.history) :
    Backup.findByUuid repo r.uuid = .ok r := by
  unfold Backup.findByUuid
  rw [find_uuid hn hr]

/-! ### C67: what the exit code says -/

/-- What `rm` makes of a revision: a local one is gone, one of another server loses its tags. -/
def removed (r : Rev) : Option Rev := if r.server = "" then none else some { r with tags := ∅ }

theorem onDisk_remove (s : Repo) (r : Rev) (u : String) :
    onDisk (s.remove r).files u = if u = r.uuid then removed r else onDisk s.files u := by
  unfold Repo.remove removed
  by_cases h : r.server = ""
  · simp only [h, ne_eq, not_true_eq_false, and_false, if_false, if_true]
    exact onDisk_erase _ _
  · rw [if_pos ⟨rfl, h⟩, if_neg h]
    exact onDisk_set (files := s.files) { r with tags := ∅ } u

theorem rm_files (l : List Rev) : ∀ (s : Repo), (l.map Rev.uuid).Nodup →
    (∀ r ∈ l, onDisk (s.rm l).files r.uuid = removed r) ∧
    ∀ u, (∀ r ∈ l, r.uuid ≠ u) → onDisk (s.rm l).files u = onDisk s.files u := by
  induction l with
  | nil => intro s _; exact ⟨by simp, fun _ _ => rfl⟩
  | cons x l ih =>
    intro s hn
    simp only [List.map_cons, List.nodup_cons] at hn
    obtain ⟨i1, i2⟩ := ih (s.remove x) hn.2
    have he : s.rm (x :: l) = (s.remove x).rm l := rfl
    rw [he]
    refine ⟨?_, ?_⟩
    · intro r hr
      rcases List.mem_cons.1 hr with rfl | hr
      · rw [i2 _ (fun y hy e => hn.1 (by rw [← e]; exact List.mem_map_of_mem hy)), onDisk_remove, if_pos rfl]
      · exact i1 r hr
    · intro u hu
      rw [i2 u (fun r hr => hu r (by simp [hr])), onDisk_remove, if_neg (fun e => hu x (by simp) e.symm)]

/-- **C67** `backy rm`: the exit code is 0 exactly if the specification is valid and nobody holds the lock.  Then exactly the selected
revisions are removed (those of other servers lose their tags), otherwise nothing has changed. -/
theorem C67_rm (env : Env) (x : Outside) (sch : Schedule) (hx : x.sch = some sch) (dry : Bool) (spec : String) (s : Sys) :
    let out := main env x dry (.repo (.rm spec)) s
    SameData s out.2 ∧
    (∀ revs, selects x s spec = .ok revs → x.busy = false → out.1 = 0 ∧
      (∀ r ∈ revs, onDisk out.2.src.repo.files r.uuid = removed r) ∧
      (∀ u, (∀ r ∈ revs, r.uuid ≠ u) → onDisk out.2.src.repo.files u = onDisk s.src.repo.files u)) ∧
    ((∃ e, selects x s spec = .error e) ∨ x.busy = true → out.1 = 1 ∧ Same s out.2) := by
  dsimp only
  refine ⟨?_, ?_, ?_⟩
  · simp only [main, hx, Cmd.run]
    exact ⟨rfl, rfl, rfl⟩
  · intro revs hr hb
    have hr' : findRevisions ⟨s.connect.src.repo.history, x.pd⟩ spec = .ok revs := hr
    obtain ⟨h1, h2⟩ := rm_files revs s.connect.src.repo (selects_nodup hr).2
    simp only [main, hx, Cmd.run, RCmd.run, withRevs, hr', ifFree, hb, noneRet, exitCode, Ret.code]
    exact ⟨rfl, h1, h2⟩
  · intro h
    cases hr : selects x s spec with
    | error e =>
      have hr' : findRevisions ⟨s.connect.src.repo.history, x.pd⟩ spec = .error e := hr
      simp only [main, hx, Cmd.run, RCmd.run, withRevs, hr', exitCode]
      exact ⟨trivial, ⟨rfl, rfl, rfl⟩, rfl⟩
    | ok revs =>
      have hr' : findRevisions ⟨s.connect.src.repo.history, x.pd⟩ spec = .ok revs := hr
      have hb : x.busy = true := by
        rcases h with ⟨e, h⟩ | h
        · rw [hr] at h; cases h
        · exact h
      simp only [main, hx, Cmd.run, RCmd.run, withRevs, hr', ifFree, hb, noneRet, exitCode]
      exact ⟨rfl, ⟨rfl, rfl, rfl⟩, rfl⟩

/-- **C67** `backy tags`: if the exit code is 0 the specification is valid and exactly the selected revisions have the new tags;
otherwise it is 1 and nothing has changed. -/
theorem C67_tags (env : Env) (x : Outside) (sch : Schedule) (hx : x.sch = some sch) (dry : Bool) (a : Action) (auto : Bool)
    (expect : Option String) (spec text : String) (force : Bool) (s : Sys) :
    let out := main env x dry (.repo (.tags a.name auto expect spec text force)) s
    SameData s out.2 ∧ (out.1 = 0 ∨ out.1 = 1) ∧
    (out.1 = 0 → ∃ revs, selects x s spec = .ok revs ∧
      (∀ r ∈ revs, onDisk out.2.src.repo.files r.uuid = changed a (parseTags text) auto r) ∧
      (∀ u, (∀ r ∈ revs, r.uuid ≠ u) → onDisk out.2.src.repo.files u = onDisk s.src.repo.files u)) ∧
    (out.1 = 1 → Same s out.2) := by
  dsimp only
  have hd : SameData s (main env x dry (.repo (.tags a.name auto expect spec text force)) s).2 := by
    simp only [main, hx, Cmd.run]
    exact ⟨rfl, rfl, rfl⟩
  refine ⟨hd, ?_⟩
  suffices hs : ∀ out, main env x dry (.repo (.tags a.name auto expect spec text force)) s = out →
      (out.1 = 1 ∧ out.2.src.repo.files = s.src.repo.files) ∨ (out.1 = 0 ∧ ∃ revs, selects x s spec = .ok revs ∧
      (∀ r ∈ revs, onDisk out.2.src.repo.files r.uuid = changed a (parseTags text) auto r) ∧
      (∀ u, (∀ r ∈ revs, r.uuid ≠ u) → onDisk out.2.src.repo.files u = onDisk s.src.repo.files u)) by
    rcases hs _ rfl with ⟨h1, h2⟩ | ⟨h1, h2⟩
    · exact ⟨.inr h1, fun h => absurd (h1.symm.trans h) (by decide), fun _ => ⟨hd, h2.symm⟩⟩
    · exact ⟨.inl h1, fun _ => h2, fun h => absurd (h1.symm.trans h) (by decide)⟩
  intro out ho
  cases hb : x.busy with
  | true =>
    left
    rw [← ho]
    simp only [main, hx, Cmd.run, RCmd.run, ifFree, hb, if_true, tagsRet, exitCode]
    exact ⟨trivial, rfl⟩
  | false =>
    have hC := C35_tag_change s.connect.src.repo sch x.pd a spec (parseTags text) (expect.map parseTags) auto force
    have hss : s.connect.src.repo.scan.history = s.src.repo.scan.history := rfl
    have ho' : out = (exitCode (tagsRet (s.connect.src.repo.tagsOp sch x.pd a.name spec (parseTags text) (expect.map parseTags) auto force)).1,
        { s.connect with src := { s.connect.src with repo := (tagsRet (s.connect.src.repo.tagsOp sch x.pd a.name spec (parseTags text)
            (expect.map parseTags) auto force)).2 } }) := by
      rw [← ho]
      simp only [main, hx, Cmd.run, RCmd.run, ifFree, hb, Bool.false_eq_true, if_false]
    generalize s.connect.src.repo.tagsOp sch x.pd a.name spec (parseTags text) (expect.map parseTags) auto force = g at *
    obtain ⟨g1, g2⟩ := g
    dsimp only at hC
    obtain ⟨c1, c2⟩ := hC
    rw [hss] at c1 c2
    have he : (∃ e, g1 = .error e) ∧ g2.files = s.src.repo.files → out.1 = 1 ∧ out.2.src.repo.files = s.src.repo.files := by
      rintro ⟨⟨e, rfl⟩, h⟩
      rw [ho']
      exact ⟨rfl, h⟩
    cases hr : selects x s spec with
    | error e =>
      have := c1 e hr
      exact .inl (he ⟨⟨e, this.1⟩, this.2⟩)
    | ok revs =>
      obtain ⟨c3, c4⟩ := c2 revs hr
      by_cases hv : force = false ∧ a ≠ .remove ∧ ∃ t ∈ parseTags text, isManual t = false ∧ t ∉ sch.keys
      · exact .inl (he (c3 hv))
      · obtain ⟨c5, c6⟩ := c4 hv
        by_cases hm : ∃ r ∈ revs, ∃ t, expect.map parseTags = some t ∧ t ≠ r.tags
        · obtain ⟨h1, h2⟩ := c5 hm
          left
          rw [ho', h1]
          exact ⟨rfl, h2⟩
        · have hm' : ∀ r ∈ revs, ∀ t, expect.map parseTags = some t → t = r.tags := by
            intro r hr t ht
            by_contra hne
            exact hm ⟨r, hr, t, ht, hne⟩
          obtain ⟨h1, h2, h3⟩ := c6 hm'
          right
          rw [ho', h1]
          exact ⟨rfl, revs, rfl, h2, h3⟩

/-- **C67** `backy distrust` of local revisions: the exit code is 0 exactly if nobody holds the lock.  Then exactly the selected revisions are
distrusted, otherwise nothing has changed. -/
theorem C67_distrust (env : Env) (x : Outside) (sch : Schedule) (hx : x.sch = some sch) (dry : Bool) (spec : String) (s : Sys) (revs : List Rev)
    (hr : selects x s spec = .ok revs) (hl : ∀ r ∈ revs, r.server = "") :
    let out := main env x dry (.repo (.distrust spec)) s
    SameData s out.2 ∧
    (x.busy = false → out.1 = 0 ∧
      (∀ r ∈ revs, onDisk out.2.src.repo.files r.uuid = some { r with trust := .distrusted }) ∧
      (∀ u, (∀ r ∈ revs, r.uuid ≠ u) → onDisk out.2.src.repo.files u = onDisk s.src.repo.files u)) ∧
    (x.busy = true → out.1 = 1 ∧ Same s out.2) := by
  dsimp only
  have hr' : findRevisions ⟨s.connect.src.repo.history, x.pd⟩ spec = .ok revs := hr
  have hn := (selects_nodup hr).2
  refine ⟨?_, ?_, ?_⟩
  · simp only [main, hx, Cmd.run]
    exact ⟨rfl, rfl, rfl⟩
  · intro hb
    obtain ⟨t, ht⟩ := distrust_local revs s.connect.src.repo hl
    have hf := distrust_files revs s.connect.src.repo hl hn
    rw [ht] at hf
    simp only [main, hx, Cmd.run, RCmd.run, withRevs, hr', ifFree, hb, Bool.false_eq_true, if_false, ht, noneRet, exitCode, Ret.code]
    refine ⟨rfl, ?_, ?_⟩
    · intro r hrm
      rw [hf]
      rw [find_uuid hn hrm]
    · intro u hu
      rw [hf]
      rw [find_uuid_none hu]
      rfl
  · intro hb
    simp only [main, hx, Cmd.run, RCmd.run, withRevs, hr', ifFree, hb, if_true, noneRet, exitCode]
    exact ⟨trivial, ⟨rfl, rfl, rfl⟩, rfl⟩

/-- **C67** `backy distrust` fails without any effect if the specification is invalid, and fails if a selected revision belongs to another server. -/
theorem C67_distrust_fails (env : Env) (x : Outside) (sch : Schedule) (hx : x.sch = some sch) (dry : Bool) (spec : String) (s : Sys) :
    let out := main env x dry (.repo (.distrust spec)) s
    ((∃ e, selects x s spec = .error e) → out.1 = 1 ∧ Same s out.2) ∧
    (∀ revs, selects x s spec = .ok revs → (∃ r ∈ revs, r.server ≠ "") → out.1 = 1) := by
  dsimp only
  refine ⟨?_, ?_⟩
  · rintro ⟨e, he⟩
    have hr' : findRevisions ⟨s.connect.src.repo.history, x.pd⟩ spec = .error e := he
    simp only [main, hx, Cmd.run, RCmd.run, withRevs, hr', exitCode]
    exact ⟨trivial, ⟨rfl, rfl, rfl⟩, rfl⟩
  · intro revs hr hrem
    have hr' : findRevisions ⟨s.connect.src.repo.history, x.pd⟩ spec = .ok revs := hr
    have key : ∀ (l : List Rev) (m : Repo), (∃ r ∈ l, r.server ≠ "") → (m.distrust l).1 = .error .assertion := by
      intro l
      induction l with
      | nil => rintro m ⟨r, h, _⟩; cases h
      | cons y l ih =>
        rintro m ⟨r, h, hs⟩
        unfold Repo.distrust
        split
        · rfl
        · rename_i hy
          rcases List.mem_cons.1 h with rfl | h
          · exact absurd hs hy
          · exact ih _ ⟨r, h, hs⟩
    have hk := key revs s.connect.src.repo hrem
    simp only [main, hx, Cmd.run, RCmd.run, withRevs, hr', ifFree]
    split
    · rfl
    · generalize s.connect.src.repo.distrust revs = g at *
      obtain ⟨g1, g2⟩ := g
      dsimp only at hk
      subst hk
      rfl

/-- **C67** `backy restore`: with an invalid specification the exit code is 1 and the target is untouched; a revision that is stored
intact is restored completely and the exit code is 0. -/
theorem C67_restore (env : Env) (x : Outside) (sch : Schedule) (hx : x.sch = some sch) (dry : Bool) (spec : String) (s : Sys) :
    let target := (restoreCmd env x spec s.connect).2
    (∀ e, find ⟨s.src.repo.scan.history, x.pd⟩ spec = .error e →
      (main env x dry (.restore spec) s).1 = 1 ∧ target = x.target) ∧
    (∀ r c, find ⟨s.src.repo.scan.history, x.pd⟩ spec = .ok r →
      WOK env s.src.w → OnDisk env s.src.w r.uuid c → CollFree env.H s.src.w.log →
      (main env x dry (.restore spec) s).1 = 0 ∧ target = some c) := by
  dsimp only
  refine ⟨?_, ?_⟩
  · intro e he
    have he' : find ⟨s.connect.src.repo.history, x.pd⟩ spec = .error e := he
    simp only [main, hx, Cmd.run, restoreCmd, he', exitCode]
    exact ⟨trivial, trivial⟩
  · intro r c hr hw hd hc
    have hr' : find ⟨s.connect.src.repo.history, x.pd⟩ spec = .ok r := hr
    have hm : r ∈ s.connect.src.repo.history := find_mem (c := ⟨s.src.repo.scan.history, x.pd⟩) (nodup_of_map_uuid (Repo.scan_nodup s.src.repo)) hr
    have hf : Backup.findByUuid s.connect.connect.src.repo r.uuid = .ok r :=
      findByUuid_ok (Repo.scan_nodup s.connect.src.repo) hm
    have hC := C20_restore_file env s.connect.connect.src.w r c (Backup.WOK.fresh (Backup.WOK.fresh hw)) hd hc x.target
    simp only [main, hx, Cmd.run, restoreCmd, hr', mainRestore, hf, hC, exitCode, Ret.code]
    exact ⟨rfl, trivial⟩

/-! ### C68: commands that only read -/

/-- Commands that are meant to read only. -/
def Cmd.reads : Cmd → Bool
  | .repo (.revParse _) => true
  | .repo (.log _) => true
  | .restore _ => true
  | _ => false

/-- **C68** `rev-parse`, `log` and `restore` change nothing in the repository, in Ceph or in other revisions, whether they succeed or fail. -/
theorem C68_reads (env : Env) (x : Outside) (dry : Bool) (c : Cmd) (hc : c.reads = true) (s : Sys) :
    Same s (main env x dry c s).2 := by
  unfold main
  cases x.sch with
  | none => exact ⟨⟨rfl, rfl, rfl⟩, rfl⟩
  | some sch =>
    dsimp only
    cases c with
    | repo c =>
      cases c with
      | revParse spec =>
        simp only [Cmd.run, RCmd.run, withRevs]
        split <;> exact ⟨⟨rfl, rfl, rfl⟩, rfl⟩
      | log spec =>
        simp only [Cmd.run, RCmd.run, withRevs]
        split <;> exact ⟨⟨rfl, rfl, rfl⟩, rfl⟩
      | distrust _ => cases hc
      | rm _ => cases hc
      | tags _ _ _ _ _ _ => cases hc
    | backup _ _ => cases hc
    | restore spec =>
      simp only [Cmd.run]
      exact ⟨⟨rfl, rfl, rfl⟩, rfl⟩
    | verify _ => cases hc
    | gc _ _ => cases hc
    | init => cases hc

/-! ### C69: what a foreground backup leaves behind -/

theorem all_verifyMark {P : Rev → Prop} (hP : Core P) {env : Env} {order : List Hash → List Hash} {s : Src} (h : All P s.repo)
    {r : Rev} (hr : P r) : All P (Src.verifyMark env order s r).2.repo := by
  unfold Src.verifyMark
  split
  · exact h
  · split
    · exact h.remove hP hr false
    · split
      · exact h
      · exact h.store (hP r _ hr rfl rfl rfl rfl)

theorem all_verify {P : Rev → Prop} (hP : Core P) {env : Env} {order : List Hash → List Hash} {s : Src} (h : All P s.repo)
    {r : Rev} (hr : P r) : All P (Src.verify env order s r).2.repo := by
  have hm := all_verifyMark hP (env := env) (order := order) h hr
  unfold Src.verify
  generalize Src.verifyMark env order s r = g at *
  obtain ⟨g1, g2⟩ := g
  cases g1
  · exact hm
  · dsimp only
    rw [gc_repo]
    exact hm

theorem all_verifyDistrusted {P : Rev → Prop} (hP : Core P) {env : Env} {o : Rbd} {s : Src} (h : All P s.repo) :
    All P (verifyDistrusted env o s).2.repo := by
  unfold verifyDistrusted
  split
  · exact h.scan
  · rename_i r hr
    refine all_verify hP h.scan (h.scan.hist r ?_)
    have := List.mem_of_find?_eq_some hr
    rw [List.mem_reverse] at this
    exact List.mem_of_mem_filter this

theorem all_conclude {P : Rev → Prop} (hP : Core P) {env : Env} {o : Rbd} {s : Src} (h : All P s.repo) {r : Rev} (hr : P r)
    (hf : P (finished o r)) (v : Bool) : All P (conclude env o r v s).2.repo := by
  have hd : All P (verifyDistrusted env o (if v then { s with repo := s.repo.store (finished o r) } else
      { s with repo := s.repo.remove r } : Src)).2.repo := by
    apply all_verifyDistrusted hP
    cases v
    · exact h.remove hP hr false
    · exact h.store hf
  unfold conclude
  generalize verifyDistrusted env o (if v then { s with repo := s.repo.store (finished o r) } else
      { s with repo := s.repo.remove r } : Src) = g at *
  obtain ⟨g1, g2⟩ := g
  cases g1 <;> exact hd

theorem all_afterSnapshot {P : Rev → Prop} (hP : Core P) {env : Env} {o : Rbd} {s : Src} (h : All P s.repo) {r : Rev} (hr : P r)
    (hf : P (finished o r)) (res : Except PyErr Bool) : All P (afterSnapshot env o r res s).2.repo := by
  unfold afterSnapshot
  split
  · exact all_conclude hP h hr hf _
  · have hd := All.distrust hP s.repo.localHistory h (fun x hx => h.hist x (mem_localHistory.1 hx).1)
    generalize s.repo.distrust s.repo.localHistory = g at *
    obtain ⟨g1, g2⟩ := g
    cases g1
    · exact hd
    · exact all_conclude hP hd hr hf false
  · exact h

theorem all_backup {P : Rev → Prop} (hP : Core P) {env : Env} {full : Bool} {o : Rbd} {s : Sys} (h : All P s.src.repo) {r : Rev} (hr : P r)
    (hf : P (finished o r)) : All P (backup env full o r s).2.src.repo := by
  unfold backup
  split
  · exact h
  · split
    · exact h
    · dsimp only
      apply all_afterSnapshot hP _ hr hf
      exact h

theorem all_mainBackup {P : Rev → Prop} (hP : Core P) {env : Env} {full : Bool} {o : Rbd} {uuid : String} {s : Sys} (h : All P s.src.repo)
    (hf : ∀ r, P r → P (finished o r)) : All P (mainBackup env full o uuid s).2.src.repo := by
  have hc : All P s.connect.src.repo := h.scan
  unfold mainBackup
  split
  · exact hc
  · rename_i r hr
    have hm : r ∈ s.connect.src.repo.history := by
      unfold Backup.findByUuid at hr
      split at hr
      · cases hr
      · rename_i hq
        cases hr
        exact List.mem_of_find?_eq_some hq
    have hb := all_backup hP (env := env) (full := full) (o := o) hc (hc.hist r hm) (hf r (hc.hist r hm))
    generalize backup env full o r s.connect = g at *
    obtain ⟨g1, g2⟩ := g
    cases g1 with
    | error e => exact hb
    | ok b => cases b <;> exact hb

/-- The state when `backy-rbd backup` has ended, before the final `_clean()`. -/
def beforeFinalClean (env : Env) (x : Outside) (tags : String) (s : Sys) : Nat × Sys :=
  mainBackupLocked env x { s.connect with src := { s.connect.src with
    repo := s.connect.src.repo.clean.writeInfo (newRev x.uuid x.ts (parseTags tags)) } }

/-- **C69** (partial) What the final `_clean()` of a foreground backup does: nothing.  Whatever happened before, all revisions are as the
backup process left them. -/
theorem C69_final_clean_does_nothing_partial (env : Env) (x : Outside) (sch : Schedule) (hx : x.sch = some sch) (dry : Bool) (tags : String)
    (s : Sys) (hn : Named s.src.repo.files) (hb : x.busy = false) (u : String) :
    onDisk (main env x dry (.backup tags true) s).2.src.repo.files u = onDisk (beforeFinalClean env x tags s).2.src.repo.files u := by
  have hcl : ∀ m : Repo, onDisk ({ m with history := s.connect.src.repo.clean.history } : Repo).clean.files u = onDisk m.files u := by
    intro m
    classical
    rw [Conc.C39_clean_partial, if_neg]
    rintro ⟨r, hr, _, hl, hc⟩
    have := ((clean_complete (Sync.scan hn)).2 r).1 hr
    rw [this.2 (by simp [Rev.isLocal, hl])] at hc
    cases hc
  simp only [main, hx, Cmd.run, backupCmd, hb, Bool.false_eq_true, if_false, if_true, finalClean]
  have he : mainBackupLocked env x { s.connect with src := { s.connect.src with
      repo := s.connect.src.repo.clean.writeInfo (newRev x.uuid x.ts (parseTags tags)) } } = beforeFinalClean env x tags s := rfl
  rw [he]
  split
  · rfl
  · exact hcl _

/-- **C69** (partial: up to its own revision) After a foreground backup that got the lock at its start, whatever happens in it, the only
incomplete local revision there can be is its own. -/
theorem C69_only_own_partial (env : Env) (x : Outside) (sch : Schedule) (hx : x.sch = some sch) (dry : Bool) (tags : String) (force : Bool)
    (s : Sys) (hn : Named s.src.repo.files) (hb : x.busy = false) (u : String) (r : Rev)
    (hr : onDisk (main env x dry (.backup tags force) s).2.src.repo.files u = some r) (hl : r.server = "")
    (hc : r.clean = false) : r.uuid = x.uuid := by
  let P : Rev → Prop := fun r => r.server = "" → r.clean = false → r.uuid = x.uuid
  have hP : Core P := by
    intro a b ha hu hs ht _ h1 h2
    rw [hu]
    exact ha (hs ▸ h1) (by unfold Rev.clean at *; rw [← ht]; exact h2)
  have h0 : All P s.connect.src.repo.clean := by
    have hsy := clean_complete (Sync.scan hn)
    refine ⟨fun r hr h1 h2 => ?_, fun u r hr h1 h2 => ?_, hsy.1.named⟩
    · have := ((hsy.2 r).1 hr).2 (by simp [Rev.isLocal, h1])
      rw [this] at h2; cases h2
    · have hm : r ∈ s.src.repo.scan.clean.history := (hsy.1.mem r).2 (by rw [onDisk_uuid hsy.1.named hr]; exact hr)
      have := ((hsy.2 r).1 hm).2 (by simp [Rev.isLocal, h1])
      rw [this] at h2; cases h2
  have hfin : ∀ r, P r → P (finished x.rbd r) := fun r _ _ h => by simp [finished, Rev.clean, Dict.has] at h
  have h1 : All P (s.connect.src.repo.clean.writeInfo (newRev x.uuid x.ts (parseTags tags))) :=
    h0.writeInfo (fun _ _ => rfl)
  have h2 : All P (beforeFinalClean env x tags s).2.src.repo := by
    unfold beforeFinalClean mainBackupLocked
    split
    · exact All.scan h1
    · exact all_mainBackup hP h1 hfin
  have h3 : All P (main env x dry (.backup tags force) s).2.src.repo := by
    simp only [main, hx, Cmd.run, backupCmd, hb, Bool.false_eq_true, if_false]
    generalize (if force = true then Except.ok () else validateTags sch (parseTags tags)) = v
    cases v with
    | error e => exact h0
    | ok w =>
      have he : mainBackupLocked env x { s.connect with src := { s.connect.src with
          repo := s.connect.src.repo.clean.writeInfo (newRev x.uuid x.ts (parseTags tags)) } } = beforeFinalClean env x tags s := rfl
      simp only [he, finalClean]
      split
      · exact h2
      · exact All.clean hP ⟨h0.hist, h2.disk, h2.named⟩
  exact h3.disk u r hr hl hc

/-- Test environment of a command: everything works. -/
def exOutside : Outside :=
  { sch := some exSchedule, pd := fun _ => none, now := fun _ => 0, busy := false, busyRun := false, busyEnd := false,
    busyPurge := false, alwaysFull := false, rbd := idealRbd [0, 0, 0, 0, 1, 1, 1, 1] [0], uuid := "a", ts := 10, target := none }

/-- **C69** is false of the code: a foreground backup fails (here since `rbd snap create` fails), nobody else is active, and its
incomplete revision is still there when the command has ended. -/
theorem C69_false : ∃ (x : Outside) (s : Sys), New s ∧ x.busy = false ∧ x.busyRun = false ∧ x.busyEnd = false ∧
    (main Test.env x false (.backup "daily" false) s).1 = 1 ∧
    (onDisk (main Test.env x false (.backup "daily" false) s).2.src.repo.files x.uuid).map Rev.clean = some false :=
  ⟨{ exOutside with rbd := { idealRbd [] [] with snapCreateFails := true } }, exNew, exNew_new, rfl, rfl, rfl, by decide +kernel,
    by decide +kernel⟩

/-- Test: a foreground backup that works. -/
example : (main Test.env exOutside false (.backup "daily" false) exNew).1 = 0 ∧
    (onDisk (main Test.env exOutside false (.backup "daily" false) exNew).2.src.repo.files "a").map Rev.clean = some true := by
  decide +kernel

/-! ### C70: `-n` -/

/-- A system with the revisions of `exTags`. -/
def exTagged : Sys := { exNew with src := { exNew.src with repo := exTags } }

theorem exTagged_sel : selects exOutside exTagged "tag:daily" =
    .ok [mkRev "a" 10 {"daily"}, mkRev "b" 20 {"daily"} "srv", mkRev "c" 30 {"daily", "weekly"}] := exTags_sel

/-- **C70** is false of the code: with `-n` a revision is removed. -/
theorem C70_false : ∃ (x : Outside) (c : Cmd) (s : Sys), (onDisk s.src.repo.files "a").isSome = true ∧
    onDisk (main Test.env x true c s).2.src.repo.files "a" = none :=
  ⟨exOutside, .repo (.rm "tag:daily"), exTagged, by decide +kernel,
    (((C67_rm Test.env exOutside exSchedule rfl true "tag:daily" exTagged).2.1 _ exTagged_sel rfl).2.1 (mkRev "a" 10 {"daily"}) (by simp)).trans
      (by decide +kernel)⟩

/-- **C70** (partial: what `-n` does) Nothing at all: the outcome of every command is the same with and without it. -/
theorem C70_ignored_partial (env : Env) (x : Outside) (c : Cmd) (s : Sys) : main env x true c s = main env x false c s := rfl

/-! ### C71: how tags are written -/

/-- A tag as written on the command line, with white space around it. -/
structure Written where
  before : List Char
  tag : List Char
  after : List Char

/-- White space around a text without white space at its ends and without a comma. -/
structure Written.Ok (t : Written) : Prop where
  before : White t.before
  tag : Trimmed t.tag
  noComma : ',' ∉ t.tag
  after : White t.after

/-- The characters. -/
def Written.text (t : Written) : List Char := t.before ++ t.tag ++ t.after

theorem Written.Ok.strip {t : Written} (h : t.Ok) : strip t.text = t.tag := by
  by_cases hne : t.tag = []
  · unfold Written.text
    rw [hne, List.append_nil]
    exact strip_white (h.before.append h.after)
  · exact strip_pad h.before h.after h.tag hne

theorem Written.Ok.comma {t : Written} (h : t.Ok) : ',' ∉ t.text := by
  have hw : ∀ l, White l → ',' ∉ l := fun l hl hc => absurd (hl _ hc) (by decide)
  unfold Written.text
  simp only [List.mem_append, not_or]
  exact ⟨⟨hw _ h.before, h.noComma⟩, hw _ h.after⟩

theorem splitComma_noComma : ∀ {l : List Char}, ',' ∉ l → splitComma l = [l]
  | [], _ => rfl
  | c :: l, h => by
    have h1 : c ≠ ',' := fun e => h (by simp [e])
    have h2 : ',' ∉ l := fun e => h (by simp [e])
    rw [splitComma, if_neg h1, splitComma_noComma h2]

theorem splitComma_append : ∀ {l r : List Char}, ',' ∉ l → splitComma (l ++ ',' :: r) = l :: splitComma r
  | [], r, _ => by simp [splitComma]
  | c :: l, r, h => by
    have h1 : c ≠ ',' := fun e => h (by simp [e])
    have h2 : ',' ∉ l := fun e => h (by simp [e])
    rw [List.cons_append, splitComma, if_neg h1, splitComma_append h2]

theorem splitComma_intercalate : ∀ (l : List (List Char)), l ≠ [] → (∀ t ∈ l, ',' ∉ t) → splitComma (List.intercalate [','] l) = l
  | [], h, _ => absurd rfl h
  | [t], _, h => by
    rw [show List.intercalate [','] [t] = t by simp]
    exact splitComma_noComma (h t (by simp))
  | t :: u :: l, _, h => by
    have : List.intercalate [','] (t :: u :: l) = t ++ ',' :: List.intercalate [','] (u :: l) := by
      simp [List.intercalate_cons_cons]
    rw [this, splitComma_append (h t (by simp)), splitComma_intercalate (u :: l) (by simp) (fun x hx => h x (by simp [hx]))]

/-- **C71** Tags joined by commas, with any white space around each, are read as exactly these tags. -/
theorem C71_tags_text (l : List Written) (hne : l ≠ []) (hok : ∀ t ∈ l, t.Ok) :
    parseTags (String.ofList (List.intercalate [','] (l.map Written.text))) = (l.map (fun t => String.ofList t.tag)).toFinset := by
  unfold parseTags
  rw [String.toList_ofList, splitComma_intercalate _ (by simpa using hne) (by
    intro t ht
    obtain ⟨w, hw, rfl⟩ := List.mem_map.1 ht
    exact (hok w hw).comma), List.map_map]
  congr 1
  apply List.map_congr_left
  intro t ht
  simp only [Function.comp, (hok t ht).strip]

/-- **C71** No text stands for "no tags": the empty text is one tag with an empty name, and the set is never empty. -/
theorem C71_never_empty : parseTags "" = {""} ∧ ∀ s, parseTags s ≠ ∅ := by
  refine ⟨by decide +kernel, fun s h => ?_⟩
  unfold parseTags at h
  have hne : ∀ l, splitComma l ≠ [] := by
    intro l
    induction l with
    | nil => simp [splitComma]
    | cons c l ih =>
      unfold splitComma
      split
      · simp
      · split <;> simp
  have := List.toFinset_eq_empty_iff _ |>.1 h
  exact hne _ (List.map_eq_nil_iff.1 this)

/-- **C71** What is read contains only tags without comma and without white space at the ends. -/
theorem C71_tags_trimmed (s t : String) (h : t ∈ parseTags s) : ',' ∉ t.toList ∧ strip t.toList = t.toList := by
  unfold parseTags at h
  rw [List.mem_toFinset, List.mem_map] at h
  obtain ⟨l, hl, rfl⟩ := h
  rw [String.toList_ofList]
  have hsub : ∀ c ∈ strip l, c ∈ l := by
    intro c hc
    unfold strip at hc
    rw [List.mem_reverse] at hc
    have := (List.dropWhile_sublist _).subset hc
    rw [List.mem_reverse] at this
    exact (List.dropWhile_sublist _).subset this
  have hno : ∀ (x : List Char), ∀ l ∈ splitComma x, ',' ∉ l := by
    intro x
    induction x with
    | nil => intro l hl; simp [splitComma] at hl; simp [hl]
    | cons c x ih =>
      intro l hl
      unfold splitComma at hl
      split at hl
      · rcases List.mem_cons.1 hl with rfl | hl
        · simp
        · exact ih l hl
      · rename_i hc
        split at hl
        · simp at hl
          subst hl
          simpa using fun e => hc e.symm
        · rename_i a r hs
          rcases List.mem_cons.1 hl with rfl | hl
          · have := ih a (by rw [hs]; simp)
            simp only [List.mem_cons, not_or]
            exact ⟨fun e => hc e.symm, this⟩
          · exact ih l (by rw [hs]; simp [hl])
  refine ⟨fun h => hno _ l hl (hsub _ h), ?_⟩
  have hd : ∀ x : List Char, ∀ c, (x.dropWhile Char.isWhitespace).head? = some c → c.isWhitespace = false := by
    intro x c hc
    have := List.head?_dropWhile_not Char.isWhitespace x
    rw [hc] at this
    simpa using this
  apply strip_trimmed
  constructor
  · intro c hc
    unfold strip at hc
    rw [List.head?_reverse] at hc
    have hs : (l.dropWhile Char.isWhitespace).head? = some c := by
      have hsuf : (l.dropWhile Char.isWhitespace).reverse.dropWhile Char.isWhitespace <:+ (l.dropWhile Char.isWhitespace).reverse :=
        List.dropWhile_suffix _
      obtain ⟨pre, hpre⟩ := hsuf
      have hlast : (l.dropWhile Char.isWhitespace).reverse.getLast? = some c := by
        rw [← hpre, List.getLast?_append, hc]; rfl
      rwa [List.getLast?_reverse] at hlast
    exact hd l c hs
  · intro c hc
    unfold strip at hc
    rw [List.getLast?_reverse] at hc
    exact hd _ c hc

/-- Test: spaces around the tags. -/
example : parseTags "daily, manual:x " = {"daily", "manual:x"} := by decide +kernel

/-! ### C72: `--jobs` -/

/-- The jobs a `--jobs` option selects. -/
def Chosen (answer : Except PyErr (List JobRef)) (matcher : Except PyErr (String → Bool)) (j : JobRef) : Prop :=
  ∃ jobs m, answer = .ok jobs ∧ matcher = .ok m ∧ j ∈ jobs ∧ m j.name = true

theorem getRepos_ok {answer : Except PyErr (List JobRef)} {matcher : Except PyErr (String → Bool)} {l : List JobRef}
    (h : getRepos answer matcher = .ok l) : (∀ j, j ∈ l ↔ Chosen answer matcher j) ∧ l ≠ [] ∧
      ∃ jobs, answer = .ok jobs ∧ l.Sublist jobs := by
  unfold getRepos at h
  split at h
  · cases h
  · rename_i jobs
    split at h
    · cases h
    · split at h
      · cases h
      · rename_i m
        split at h
        · cases h
        · rename_i hne
          cases h
          refine ⟨fun j => ?_, hne, jobs, rfl, List.filter_sublist⟩
          rw [List.mem_filter]
          constructor
          · rintro ⟨h1, h2⟩; exact ⟨jobs, m, rfl, rfl, h1, h2⟩
          · rintro ⟨_, _, ⟨rfl⟩, ⟨rfl⟩, h1, h2⟩; exact ⟨h1, h2⟩

/-- **C72** If no job is selected (the daemon does not answer, has no jobs, the expression is invalid or matches nothing) the exit code is 1 and
nothing has changed. -/
theorem C72_none (x : Outside) (c : RCmd) (answer : Except PyErr (List JobRef)) (matcher : Except PyErr (String → Bool)) (h : Host)
    (hn : ∀ j, ¬ Chosen answer matcher j) : mainJobs x c answer matcher h = (1, h) := by
  unfold mainJobs call
  cases hg : getRepos answer matcher with
  | error e => rfl
  | ok l =>
    obtain ⟨h1, h2, _⟩ := getRepos_ok hg
    obtain ⟨j, hj⟩ := List.exists_mem_of_ne_nil l h2
    exact absurd ((h1 j).1 hj) (hn j)

theorem onJob_other (x : Outside) (c : RCmd) (j : JobRef) (h : Host) (p : String) (hp : p ≠ j.path) :
    (onJob x c j h).2.get? p = h.get? p := by
  unfold onJob
  split
  · rfl
  · dsimp only
    rw [Dict.get?_set, if_neg hp]

theorem callLoop_other (x : Outside) (c : RCmd) (p : String) : ∀ (l : List JobRef) (ret : Int) (h : Host), (∀ j ∈ l, p ≠ j.path) →
    (callLoop (onJob x c) l ret h).2.get? p = h.get? p
  | [], _, _, _ => rfl
  | j :: l, ret, h, hp => by
    have h1 := onJob_other x c j h p (hp j (by simp))
    unfold callLoop
    generalize onJob x c j h = g at *
    obtain ⟨g1, g2⟩ := g
    cases g1 with
    | error e => exact h1
    | ok r => exact (callLoop_other x c p l _ g2 (fun j hj => hp j (by simp [hj]))).trans h1

/-- **C72** A directory that is not that of a selected job never changes. -/
theorem C72_others (x : Outside) (c : RCmd) (answer : Except PyErr (List JobRef)) (matcher : Except PyErr (String → Bool)) (h : Host) (p : String)
    (hp : ∀ j, Chosen answer matcher j → p ≠ j.path) : (mainJobs x c answer matcher h).2.get? p = h.get? p := by
  unfold mainJobs call
  cases hg : getRepos answer matcher with
  | error e => rfl
  | ok l =>
    obtain ⟨h1, _⟩ := getRepos_ok hg
    have := callLoop_other x c p l 0 h (fun j hj => hp j ((h1 j).1 hj))
    dsimp only
    generalize callLoop (onJob x c) l 0 h = g at *
    obtain ⟨g1, g2⟩ := g
    cases g1 <;> exact this

theorem callLoop_done (x : Outside) (c : RCmd) : ∀ (l : List JobRef) (ret n : Int) (h h' : Host), (l.map JobRef.path).Nodup →
    callLoop (onJob x c) l ret h = (.ok n, h') → ret ≤ n ∧
      ∀ j ∈ l, ∃ s r repo, h.get? j.path = some s ∧ c.run x j.sch s.connect.src.repo = (.ok r, repo) ∧ r.code ≤ n ∧
        h'.get? j.path = some { s.connect with src := { s.connect.src with repo } }
  | [], ret, n, h, h', _, he => by
    cases he
    exact ⟨Int.le_refl _, by simp⟩
  | j :: l, ret, n, h, h', hn, he => by
    simp only [List.map_cons, List.nodup_cons] at hn
    have hoth : ∀ k ∈ l, j.path ≠ k.path := fun k hk e => hn.1 (e ▸ List.mem_map_of_mem hk)
    unfold callLoop at he
    cases hg : h.get? j.path with
    | none => simp [onJob, hg] at he
    | some s =>
      cases hr : c.run x j.sch s.connect.src.repo with
      | mk r repo =>
        cases r with
        | error e => simp [onJob, hg, hr] at he
        | ok r =>
          have ho : onJob x c j h = (.ok r, h.set j.path { s.connect with src := { s.connect.src with repo } }) := by
            simp only [onJob, hg, hr]
          rw [ho] at he
          dsimp only at he
          obtain ⟨i1, i2⟩ := callLoop_done x c l _ n _ h' hn.2 he
          refine ⟨by omega, ?_⟩
          intro k hk
          rcases List.mem_cons.1 hk with rfl | hk
          · refine ⟨s, r, repo, hg, hr, by omega, ?_⟩
            have := callLoop_other x c k.path l (max ret r.code) (h.set k.path { s.connect with src := { s.connect.src with repo } }) hoth
            rw [he] at this
            dsimp only at this
            rw [this, Dict.get?_set, if_pos rfl]
          · obtain ⟨s', r', repo', a1, a2, a3, a4⟩ := i2 k hk
            rw [Dict.get?_set, if_neg (fun e => hoth k hk e.symm)] at a1
            exact ⟨s', r', repo', a1, a2, a3, a4⟩

/-- **C72** If the exit code is 0 the command was carried out successfully in the directory of every selected job. -/
theorem C72_all (x : Outside) (c : RCmd) (answer : Except PyErr (List JobRef)) (matcher : Except PyErr (String → Bool)) (h : Host)
    (jobs : List JobRef) (ha : answer = .ok jobs) (hp : (jobs.map JobRef.path).Nodup)
    (h0 : (mainJobs x c answer matcher h).1 = 0) (j : JobRef) (hj : Chosen answer matcher j) :
    ∃ s r repo, h.get? j.path = some s ∧ c.run x j.sch s.connect.src.repo = (.ok r, repo) ∧ r.code ≤ 0 ∧
      (mainJobs x c answer matcher h).2.get? j.path = some { s.connect with src := { s.connect.src with repo } } := by
  unfold mainJobs call at *
  cases hg : getRepos answer matcher with
  | error e => rw [hg] at h0; simp at h0
  | ok l =>
    rw [hg] at h0
    obtain ⟨h1, _, jobs', hj', hsub⟩ := getRepos_ok hg
    rw [ha] at hj'
    cases hj'
    have hn : (l.map JobRef.path).Nodup := (hsub.map JobRef.path).nodup hp
    dsimp only at h0 ⊢
    cases hc : callLoop (onJob x c) l 0 h with
    | mk r h' =>
      rw [hc] at h0
      cases r with
      | error e => simp at h0
      | ok n =>
        dsimp only at h0 ⊢
        subst h0
        exact (callLoop_done x c l 0 0 h h' hn hc).2 j ((h1 j).2 hj)

theorem getRepos_some {answer : Except PyErr (List JobRef)} {matcher : Except PyErr (String → Bool)} {j : JobRef}
    (h : Chosen answer matcher j) : ∃ l, getRepos answer matcher = .ok l := by
  obtain ⟨jobs, m, rfl, rfl, h1, h2⟩ := h
  have h3 : j ∈ jobs.filter (fun j => m j.name) := List.mem_filter.2 ⟨h1, h2⟩
  refine ⟨jobs.filter (fun j => m j.name), ?_⟩
  simp only [getRepos]
  rw [if_neg (List.ne_nil_of_mem h1), if_neg (List.ne_nil_of_mem h3)]

theorem callLoop_works (x : Outside) (c : RCmd) : ∀ (l : List JobRef) (ret : Int) (h : Host), (l.map JobRef.path).Nodup →
    (∀ j ∈ l, ∃ s r repo, h.get? j.path = some s ∧ c.run x j.sch s.connect.src.repo = (.ok r, repo) ∧ r.code ≤ ret) →
    (callLoop (onJob x c) l ret h).1 = .ok ret
  | [], _, _, _, _ => rfl
  | j :: l, ret, h, hn, hw => by
    simp only [List.map_cons, List.nodup_cons] at hn
    obtain ⟨s, r, repo, h1, h2, h3⟩ := hw j (by simp)
    have ho : onJob x c j h = (.ok r, h.set j.path { s.connect with src := { s.connect.src with repo } }) := by
      simp only [onJob, h1, h2]
    unfold callLoop
    rw [ho]
    dsimp only
    rw [show max ret r.code = ret by omega]
    refine callLoop_works x c l ret _ hn.2 (fun k hk => ?_)
    obtain ⟨s', r', repo', a1, a2, a3⟩ := hw k (by simp [hk])
    refine ⟨s', r', repo', ?_, a2, a3⟩
    have hne : k.path ≠ j.path := fun e => hn.1 (by rw [← e]; exact List.mem_map_of_mem hk)
    rw [Dict.get?_set, if_neg hne]
    exact a1

/-- **C72** If a job is selected, and the command succeeds in the directory of every selected job, then it is carried out in all of them (`C72_all`)
and the exit code is 0. -/
theorem C72_works (x : Outside) (c : RCmd) (answer : Except PyErr (List JobRef)) (matcher : Except PyErr (String → Bool)) (h : Host)
    (jobs : List JobRef) (ha : answer = .ok jobs) (hp : (jobs.map JobRef.path).Nodup) (hj : ∃ j, Chosen answer matcher j)
    (hw : ∀ j, Chosen answer matcher j → ∃ s r repo, h.get? j.path = some s ∧ c.run x j.sch s.connect.src.repo = (.ok r, repo) ∧ r.code = 0) :
    (mainJobs x c answer matcher h).1 = 0 := by
  obtain ⟨j, hj⟩ := hj
  obtain ⟨l, hl⟩ := getRepos_some hj
  obtain ⟨h1, _, jobs', hj', hsub⟩ := getRepos_ok hl
  rw [ha] at hj'
  cases hj'
  have := callLoop_works x c l 0 h ((hsub.map JobRef.path).nodup hp) (fun k hk => by
    obtain ⟨s, r, repo, a1, a2, a3⟩ := hw k ((h1 k).1 hk)
    exact ⟨s, r, repo, a1, a2, by omega⟩)
  unfold mainJobs call
  rw [hl]
  dsimp only
  generalize callLoop (onJob x c) l 0 h = g at *
  obtain ⟨g1, g2⟩ := g
  dsimp only at this
  subst this
  rfl

/-- Test: two jobs, one is selected, its revisions are removed. -/
theorem exJobs_zero : (mainJobs exOutside (.rm "tag:daily") (.ok [⟨"one", "/a", exSchedule⟩, ⟨"two", "/b", exSchedule⟩]) (.ok (fun n => n == "one"))
    [("/a", exTagged), ("/b", exNew)]).1 = 0 :=
  C72_works _ _ _ _ _ _ rfl (by decide) ⟨⟨"one", "/a", exSchedule⟩, _, _, rfl, rfl, by simp, rfl⟩ (by
    rintro j ⟨jobs, m, hj, hm, h1, h2⟩
    cases hj
    cases hm
    simp only [List.mem_cons, List.not_mem_nil, or_false] at h1
    rcases h1 with rfl | rfl
    · have hs : findRevisions ⟨exTagged.connect.src.repo.history, exOutside.pd⟩ "tag:daily" = _ := exTagged_sel
      have hr : ((RCmd.rm "tag:daily").run exOutside exSchedule exTagged.connect.src.repo).1 = .ok .other := by
        simp only [RCmd.run, withRevs, hs]
        rfl
      exact ⟨exTagged, .other, _, rfl, Prod.ext hr rfl, rfl⟩
    · cases h2)

/-! ### C73: `verify` and `gc` -/

theorem mainVerify_files (env : Env) (order : List Hash → List Hash) (s : Sys) (uuid : String) (u : String) (hu : u ≠ uuid) :
    onDisk (mainVerify env order uuid s).2.src.repo.files u = onDisk s.src.repo.files u := by
  unfold mainVerify
  split
  · rfl
  · rename_i r hr
    have hru : r.uuid = uuid := by
      unfold Backup.findByUuid at hr
      split at hr
      · cases hr
      · rename_i hq
        cases hr
        simpa using List.find?_some hq
    have := verify_files (env := env) (order := order) (s := s.connect.src) (r := r) (u := u) (by rw [hru]; exact hu)
    generalize Src.verify env order s.connect.src r = g at *
    obtain ⟨g1, g2⟩ := g
    cases g1 <;> exact this

theorem verify_named {env : Env} {order : List Hash → List Hash} {s : Src} (hn : Named s.repo.files) (r : Rev) :
    Named (Src.verify env order s r).2.repo.files :=
  (all_verify (P := fun _ => True) (fun _ _ _ _ _ _ _ => trivial) ⟨fun _ _ => trivial, fun _ _ _ => trivial, hn⟩ trivial).named

theorem mainVerify_named (env : Env) (order : List Hash → List Hash) (s : Sys) (hn : Named s.src.repo.files) (uuid : String) :
    Named (mainVerify env order uuid s).2.src.repo.files := by
  unfold mainVerify
  split
  · exact hn
  · rename_i r hr
    have := verify_named (env := env) (order := order) (s := s.connect.src) hn r
    generalize Src.verify env order s.connect.src r = g at *
    obtain ⟨g1, g2⟩ := g
    cases g1 <;> exact this

theorem verifyLoop_files (env : Env) (order : List Hash → List Hash) (ho : ∀ l, (order l).Perm l) : ∀ (l : List Rev) (ret : Nat) (s : Sys),
    Named s.src.repo.files → (l.map Rev.uuid).Nodup → (∀ r ∈ l, onDisk s.src.repo.files r.uuid = some r) →
    ret ≤ (verifyLoop env order l ret s).1 ∧
    (∀ u, (∀ r ∈ l, r.uuid ≠ u) → onDisk (verifyLoop env order l ret s).2.src.repo.files u = onDisk s.src.repo.files u) ∧
    ((verifyLoop env order l ret s).1 = 0 → ∀ r ∈ l, r.server = "" →
      onDisk (verifyLoop env order l ret s).2.src.repo.files r.uuid = none ∨
      onDisk (verifyLoop env order l ret s).2.src.repo.files r.uuid = some { r with trust := .verified })
  | [], ret, s, _, _, _ => ⟨Nat.le_refl _, fun _ _ => rfl, by simp⟩
  | r :: l, ret, s, hn, hd, hr => by
    simp only [List.map_cons, List.nodup_cons] at hd
    have hne : ∀ y ∈ l, y.uuid ≠ r.uuid := fun y hy e => hd.1 (e ▸ List.mem_map_of_mem hy)
    have hf := mainVerify_files env order s r.uuid
    have hn' := mainVerify_named env order s hn r.uuid
    have hcode : (mainVerify env order r.uuid s).1 = 0 → r.server = "" →
        onDisk (mainVerify env order r.uuid s).2.src.repo.files r.uuid = none ∨
        onDisk (mainVerify env order r.uuid s).2.src.repo.files r.uuid = some { r with trust := .verified } := by
      intro h0 hl
      have hm : r ∈ s.connect.src.repo.history := (Repo.scan_mem hn r).2 (hr r (by simp))
      have hfu : Backup.findByUuid s.connect.src.repo r.uuid = .ok r := findByUuid_ok (Repo.scan_nodup s.src.repo) hm
      simp only [mainVerify, hfu] at h0 ⊢
      have hC := C19_verified_or_removed_partial env order ho s.connect.src r hl
      generalize Src.verify env order s.connect.src r = g at *
      obtain ⟨g1, g2⟩ := g
      cases g1 with
      | error e => simp at h0
      | ok v =>
        obtain ⟨c1, c2⟩ := hC rfl
        by_cases hq : ∀ h, Refers s.connect.src.w r.uuid h →
            Readable env s.connect.src.w h ∨ ∃ v, IsVerified s.connect.src.repo v ∧ Refers s.connect.src.w v.uuid h
        · exact .inr (c1 hq)
        · exact .inl (c2 hq)
    unfold verifyLoop
    generalize mainVerify env order r.uuid s = g at *
    obtain ⟨code, t⟩ := g
    dsimp only at *
    obtain ⟨i1, i2, i3⟩ := verifyLoop_files env order ho l (max ret code) t hn' hd.2
      (fun y hy => (hf y.uuid (hne y hy)).trans (hr y (by simp [hy])))
    refine ⟨by omega, ?_, ?_⟩
    · intro u hu
      rw [i2 u (fun y hy => hu y (by simp [hy])), hf u (fun e => hu r (by simp) e.symm)]
    · intro h0 y hy hl
      rcases List.mem_cons.1 hy with rfl | hy
      · rw [i2 y.uuid hne]
        exact hcode (by omega) hl
      · exact i3 h0 y hy hl

/-- **C73** (partial: a corrupt revision also gives 0) If `backy verify` gives 0, every selected local revision is now either marked as verified or
removed; all other revisions are as before in any case. -/
theorem C73_verify_partial (env : Env) (x : Outside) (sch : Schedule) (hx : x.sch = some sch) (dry : Bool) (spec : String) (s : Sys)
    (ho : ∀ l, (x.rbd.order l).Perm l) (hn : Named s.src.repo.files) (revs : List Rev) (hr : selects x s spec = .ok revs) :
    let out := main env x dry (.verify spec) s
    (∀ u, (∀ r ∈ revs, r.uuid ≠ u) → onDisk out.2.src.repo.files u = onDisk s.src.repo.files u) ∧
    (out.1 = 0 → ∀ r ∈ revs, r.server = "" →
      onDisk out.2.src.repo.files r.uuid = none ∨ onDisk out.2.src.repo.files r.uuid = some { r with trust := .verified }) := by
  dsimp only
  have hr' : findRevisions ⟨s.connect.src.repo.history, x.pd⟩ spec = .ok revs := hr
  obtain ⟨h1, h2⟩ := selects_nodup hr
  obtain ⟨_, i2, i3⟩ := verifyLoop_files env x.rbd.order ho revs 0 s.connect hn h2 (fun r hm => (Repo.scan_mem hn r).1 (h1 r hm))
  simp only [main, hx, Cmd.run, verifyCmd, hr', exitCode, Ret.code]
  generalize verifyLoop env x.rbd.order revs 0 s.connect = g at *
  obtain ⟨g1, g2⟩ := g
  dsimp only at *
  refine ⟨i2, fun h => i3 (by omega)⟩

theorem exCorrupt_sel : selects exOutside exCorrupt "tag:daily" =
    .ok [finished (idealRbd [] []) (newRev "a" 10 {"daily"}), finished (idealRbd [] []) (newRev "b" 20 {"daily"})] := by
  refine (findRevisions_tag _ "daily" ⟨?_, ?_⟩).trans ?_
  · repeat' (first | exact trivial | refine noSep_cons (by decide) ?_)
  · constructor <;> (intro c hc; revert hc; revert c; decide +kernel)
  · decide +kernel

/-- **C73** is false of the code: `backy verify` finds a damaged chunk in each of two revisions, removes both and gives 0. -/
theorem C73_false_verify : ∃ (s : Sys) (revs : List Rev), selects exOutside s "tag:daily" = .ok revs ∧ revs.length = 2 ∧
    (main Test.env exOutside false (.verify "tag:daily") s).1 = 0 ∧
    ∀ r ∈ revs, (∃ h, Refers s.src.w r.uuid h ∧ ¬ Readable Test.env s.src.w h) ∧
      onDisk (main Test.env exOutside false (.verify "tag:daily") s).2.src.repo.files r.uuid = none := by
  have hsel : findRevisions ⟨exCorrupt.connect.src.repo.history, exOutside.pd⟩ "tag:daily" = _ := exCorrupt_sel
  have hbad : ¬ Readable Test.env exCorrupt.src.w (Test.hash [0, 0, 0, 0]) := by
    rintro ⟨d, h1, _⟩
    revert h1
    have : exCorrupt.src.w.chunks.get? (Test.hash [0, 0, 0, 0]) = some none := by decide +kernel
    rw [this]
    intro h; cases h
  refine ⟨exCorrupt, _, exCorrupt_sel, rfl, ?_, ?_⟩
  · simp only [main, exOutside, Cmd.run, verifyCmd]
    have hsel' := hsel
    simp only [exOutside] at hsel'
    rw [hsel']
    decide +kernel
  · intro r hr
    simp only [main, exOutside, Cmd.run, verifyCmd]
    have hsel' := hsel
    simp only [exOutside] at hsel'
    rw [hsel']
    simp only [List.mem_cons, List.not_mem_nil, or_false] at hr
    rcases hr with rfl | rfl
    · refine ⟨⟨Test.hash [0, 0, 0, 0], ⟨⟨[(0, Test.hash [0, 0, 0, 0]), (1, Test.hash [1, 1, 1, 1])], 8⟩, by decide +kernel, by decide +kernel⟩, hbad⟩,
        by decide +kernel⟩
    · refine ⟨⟨Test.hash [0, 0, 0, 0], ⟨⟨[(0, Test.hash [0, 0, 0, 0]), (1, Test.hash [2, 2, 2, 2])], 8⟩, by decide +kernel, by decide +kernel⟩, hbad⟩,
        by decide +kernel⟩

/-- **C73** is false of the code: `backy gc` gives 0 although another process holds the lock and nothing was collected, and also
although the collection failed. -/
theorem C73_false_gc : (∀ (env : Env) (x : Outside) (s : Sys), x.sch ≠ none → x.busyPurge = true →
      (main env x false (.gc false false) s).1 = 0 ∧ Same s (main env x false (.gc false false) s).2) ∧
    ∃ (x : Outside) (s : Sys), x.busyPurge = false ∧ s.connect.src.gc.1 ≠ .ok () ∧ (main Test.env x false (.gc false false) s).1 = 0 := by
  refine ⟨?_, exOutside, exTagged, rfl, by decide +kernel, by decide +kernel⟩
  intro env x s hx hb
  cases hs : x.sch with
  | none => exact absurd hs hx
  | some sch =>
    simp only [main, hs, Cmd.run, gcCmd, Bool.false_eq_true, false_and, if_false, gcEnd, mainGc, hb, if_true, exitCode, Ret.code]
    exact ⟨rfl, ⟨rfl, rfl, rfl⟩, rfl⟩

/-- **C73** (partial: if it can be carried out) `backy gc` gives 0 and leaves exactly the chunks used by a local revision if nobody holds the lock
and the mapping of every local revision can be read. -/
theorem C73_gc_partial (env : Env) (x : Outside) (sch : Schedule) (hx : x.sch = some sch) (dry loc : Bool) (s : Sys) (hb : x.busyPurge = false)
    (hm : ∀ r ∈ s.connect.src.repo.localHistory, ∃ m, s.src.w.metas.get? r.uuid = some (some m)) :
    let out := main env x dry (.gc false loc) s
    out.1 = 0 ∧ out.2.src.repo.files = s.src.repo.files ∧
    (∀ h, Referenced s.connect.src h → out.2.src.w.chunks.get? h = s.src.w.chunks.get? h) ∧
    (∀ h, ¬ Referenced s.connect.src h → out.2.src.w.chunks.get? h = none) := by
  dsimp only
  have hok := (C08_gc_succeeds_iff s.connect.src).1.2 hm
  obtain ⟨h1, h2, _⟩ := C08_gc_exact s.connect.src hok
  have hrepo := gc_repo s.connect.src
  have hcc : s.connect.connect = s.connect := rfl
  simp only [main, hx, Cmd.run, gcCmd, Bool.false_eq_true, false_and, if_false, gcEnd, mainGc, hb, exitCode, Ret.code, hcc]
  generalize s.connect.src.gc = g at *
  obtain ⟨g1, g2⟩ := g
  dsimp only at hok
  subst hok
  dsimp only at *
  exact ⟨rfl, by rw [hrepo]; rfl, h1, h2⟩

/-! ### The theorems of this file applied to concrete commands -/

/-- The revisions with the tag `weekly`: one revision of this server. -/
theorem exTagged_weekly : selects exOutside exTagged "tag:weekly" = .ok [mkRev "c" 30 {"daily", "weekly"}] := by
  refine (findRevisions_tag _ "weekly" ⟨?_, ?_⟩).trans ?_
  · repeat' (first | exact trivial | refine noSep_cons (by decide) ?_)
  · constructor <;> (intro c hc; revert hc; revert c; decide +kernel)
  · decide +kernel

/-- C67_rm, C67_tags, C67_distrust, C67_distrust_fails -/
example := (C67_rm Test.env exOutside exSchedule rfl false "tag:daily" exTagged).2.1 _ exTagged_sel rfl
example := C67_tags Test.env exOutside exSchedule rfl false .add false none "tag:daily" "manual:x" false exTagged
example := (C67_distrust Test.env exOutside exSchedule rfl false "tag:weekly" exTagged _ exTagged_weekly (by decide)).2.1 rfl
example := (C67_distrust_fails Test.env exOutside exSchedule rfl false "tag:daily" exTagged).2 _ exTagged_sel
  ⟨mkRev "b" 20 {"daily"} "srv", by simp, by decide⟩

/-- C67_restore -/
example := (C67_restore Test.env exOutside exSchedule rfl false "a" exChanged).2 (finished (idealRbd [] []) (newRev "a" 10 {"daily"}))

/-- C68_reads -/
example := C68_reads Test.env exOutside false (.restore "a") rfl exChanged

/-- C69_final_clean_does_nothing_partial, C69_only_own_partial: the failing snapshot leaves the incomplete revision `a`. -/
example := C69_final_clean_does_nothing_partial Test.env exOutside exSchedule rfl false "daily" exTagged exTags_named rfl "a"
example := C69_only_own_partial Test.env { exOutside with rbd := { exOutside.rbd with snapCreateFails := true } } exSchedule rfl false "daily"
  false exNew ⟨by decide, by intro n f h _; cases h⟩ rfl "a" (newRev "a" 10 {"daily"}) (by decide +kernel) rfl (by decide)

/-- C71_tags_text: `daily, manual:x `. -/
example := C71_tags_text [⟨[], ['d', 'a', 'i', 'l', 'y'], []⟩, ⟨[' '], ['m', 'a', 'n', 'u', 'a', 'l', ':', 'x'], [' ']⟩] (by decide) (by
  intro t ht
  simp only [List.mem_cons, List.not_mem_nil, or_false] at ht
  rcases ht with rfl | rfl <;>
    exact ⟨by unfold White; decide +kernel, by unfold Trimmed; constructor <;> (intro c hc; revert hc; revert c; decide +kernel),
      by decide, by unfold White; decide +kernel⟩)
example := C71_tags_trimmed "daily, manual:x " "manual:x" (by decide +kernel)

/-- C72_none: no job matches. -/
example := C72_none exOutside (.rm "tag:daily") (.ok [⟨"one", "/a", exSchedule⟩]) (.ok (fun n => n == "two")) [("/a", exTagged)]
  (by rintro j ⟨jobs, m, h1, h2, h3, h4⟩; cases h1; cases h2; cases h3 with
      | head => cases h4
      | tail _ h => cases h)

/-- C72_others: the repository of job `two`. -/
example := C72_others exOutside (.rm "tag:daily") (.ok [⟨"one", "/a", exSchedule⟩, ⟨"two", "/b", exSchedule⟩]) (.ok (fun n => n == "one"))
  [("/a", exTagged), ("/b", exNew)] "/b"
  (by rintro j ⟨jobs, m, h1, h2, h3, h4⟩; cases h1; cases h2
      simp only [List.mem_cons, List.not_mem_nil, or_false] at h3
      rcases h3 with rfl | rfl
      · decide
      · cases h4)

/-- C73_verify_partial, C73_gc_partial -/
example := C73_verify_partial Test.env exOutside exSchedule rfl false "tag:daily" exTagged (fun _ => List.Perm.refl _) exTags_named _
  exTagged_sel
example := C73_gc_partial Test.env exOutside exSchedule rfl false false exChanged rfl (by
  intro r hr
  have h : ∀ r ∈ exChanged.connect.src.repo.localHistory, r.uuid = "a" := by decide +kernel
  rw [h r hr]
  exact ⟨⟨[(0, Test.hash [0, 0, 0, 0]), (1, Test.hash [1, 1, 1, 1])], 8⟩, by decide +kernel⟩)

/-- C72_all: job `one`. -/
example := C72_all exOutside (.rm "tag:daily") _ _ [("/a", exTagged), ("/b", exNew)] _ rfl (by decide) exJobs_zero
  ⟨"one", "/a", exSchedule⟩ ⟨_, _, rfl, rfl, by simp, rfl⟩

end Verif.Commands
