import Verif.Spec.Lasting
import Verif.Props.Record
import Verif.Props.Killed
import Verif.Props.Expiry
import Verif.Props.Commands
/-!
# C100: a complete revision lasts
-/
namespace Verif.Backup
open Verif Verif.Chunked Verif.Spec Verif.Rbd Verif.Repo Verif.Repo.Spec Verif.Files Verif.Diff

theorem SameBackup.refl (r : Rev) : SameBackup r r := ⟨rfl, rfl, rfl, rfl⟩

theorem SameBackup.trans {a b c : Rev} (h : SameBackup a b) (h' : SameBackup b c) : SameBackup a c :=
  ⟨h'.1.trans h.1, h'.2.trans h.2, h'.3.trans h.3, h'.4.trans h.4⟩

/-- The ghost log does not matter. -/
def nolog (s : Repo) : Repo := { s with log := [] }

theorem nolog_eq {a b : Repo} : nolog a = nolog b ↔ a.files = b.files ∧ a.history = b.history := by
  obtain ⟨f, h, l⟩ := a
  obtain ⟨f', h', l'⟩ := b
  simp [nolog]

theorem nolog_store {a b : Repo} (h : nolog a = nolog b) (r : Rev) : nolog (a.store r) = nolog (b.store r) := by
  rw [nolog_eq] at h ⊢
  simp [Repo.store, Repo.writeInfo, Repo.assign, h.1, h.2]

theorem nolog_remove {a b : Repo} (h : nolog a = nolog b) (r : Rev) : nolog (a.remove r) = nolog (b.remove r) := by
  unfold Repo.remove
  split
  · exact nolog_store h _
  · rw [nolog_eq] at h ⊢
    simp [Repo.drop, h.1, h.2]

theorem nolog_foldl {f : Repo → Rev → Repo} (hf : ∀ a b r, nolog a = nolog b → nolog (f a r) = nolog (f b r)) (l : List Rev) :
    ∀ {a b : Repo}, nolog a = nolog b → nolog (l.foldl f a) = nolog (l.foldl f b) := by
  induction l with
  | nil => intro a b h; exact h
  | cons x l ih => intro a b h; exact ih (hf _ _ _ h)

theorem nolog_expireRevs (tag : String) (thr : Int) : ∀ (l : List Rev) {a b : Repo}, nolog a = nolog b →
    (expireRevs tag thr l a).1 = (expireRevs tag thr l b).1 ∧ nolog (expireRevs tag thr l a).2 = nolog (expireRevs tag thr l b).2
  | [], _, _, h => ⟨rfl, h⟩
  | r :: l, a, b, h => by
    simp only [expireRevs]
    split
    · exact nolog_expireRevs tag thr l h
    · split
      · exact ⟨rfl, h⟩
      · exact nolog_expireRevs tag thr l (nolog_store h _)

theorem nolog_phase1 (pd : String → Option Int) (now : String → Int) (l : List (String × TagSpec)) : ∀ {a b : Repo}, nolog a = nolog b →
    (expirePhase1 pd now l a).1 = (expirePhase1 pd now l b).1 ∧
      nolog (expirePhase1 pd now l a).2 = nolog (expirePhase1 pd now l b).2 := by
  induction l with
  | nil => intro a b h; exact ⟨rfl, h⟩
  | cons x l ih =>
    intro a b h
    obtain ⟨tag, t⟩ := x
    simp only [expirePhase1, expireTag]
    rw [(nolog_eq.1 h).2]
    cases findRevisions ⟨b.history, pd⟩ ("tag:" ++ tag) with
    | error e => exact ⟨rfl, h⟩
    | ok revs =>
      dsimp only
      by_cases hk : revs.length < t.keep
      · rw [if_pos hk, if_pos hk]; exact ih h
      · rw [if_neg hk, if_neg hk]
        have hx := nolog_expireRevs tag (now tag - t.keep * t.interval) (dropNewest t.keep revs) h
        generalize expireRevs tag (now tag - t.keep * t.interval) (dropNewest t.keep revs) a = x at *
        generalize expireRevs tag (now tag - t.keep * t.interval) (dropNewest t.keep revs) b = y at *
        obtain ⟨x1, x2⟩ := x
        obtain ⟨y1, y2⟩ := y
        obtain ⟨h1, h2⟩ := hx
        dsimp only at h1 h2
        subst h1
        cases x1 with
        | error e => exact ⟨rfl, h2⟩
        | ok u => exact ih h2

theorem nolog_expire (sch : Schedule) (pd : String → Option Int) (now : String → Int) (s : Repo) :
    (sch.expire pd now s).2.files = (sch.expire pd now (nolog s)).2.files := by
  have h : nolog s.scan = nolog (nolog s).scan := rfl
  obtain ⟨h1, h2⟩ := nolog_phase1 pd now sch h
  unfold Schedule.expire
  generalize expirePhase1 pd now sch s.scan = x at *
  generalize expirePhase1 pd now sch (nolog s).scan = y at *
  obtain ⟨x1, x2⟩ := x
  obtain ⟨y1, y2⟩ := y
  dsimp only at h1 h2
  subst h1
  cases x1 with
  | error e => exact (nolog_eq.1 h2).1
  | ok u =>
    dsimp only
    have h3 : nolog (expirePhase2 sch x2) = nolog (expirePhase2 sch y2) := by
      unfold expirePhase2
      rw [(nolog_eq.1 h2).2]
      refine nolog_foldl (fun a b r hab => ?_) _ h2
      split
      · exact nolog_store hab _
      · exact hab
    unfold expirePhase3
    dsimp only
    rw [(nolog_eq.1 h3).2]
    exact (nolog_eq.1 (nolog_foldl (f := fun s r => s.remove r) (fun a b r hab => nolog_remove hab r) _ h3)).1

/-- The revision is there, as the record of the same backup. -/
def StillThere (r : Rev) (files : Dict String RevFile) : Prop := ∃ y, onDisk files r.uuid = some y ∧ SameBackup r y

theorem StillThere.store {r x : Rev} {s : Repo} (h : StillThere r s.files) (hx : x.uuid = r.uuid → SameBackup r x) : StillThere r (s.store x).files := by
  unfold StillThere
  rw [store_files]
  split
  · rename_i he
    exact ⟨x, rfl, hx he.symm⟩
  · exact h

theorem StillThere.distrust {r : Rev} (l : List Rev) : ∀ {s : Repo}, StillThere r s.files → (∀ x ∈ l, x.uuid = r.uuid → SameBackup r x) →
    StillThere r (s.distrust l).2.files := by
  induction l with
  | nil => intro s h _; exact h
  | cons x l ih =>
    intro s h hl
    unfold Repo.distrust
    split
    · exact h
    · refine ih (h.store ?_) (fun y hy => hl y (by simp [hy]))
      intro he
      have := hl x (by simp) he
      exact ⟨this.1, this.2, this.3, this.4⟩

theorem StillThere.tagsLoop {r : Rev} (action : String) (tags : Finset String) (l : List Rev) : ∀ {s : Repo}, StillThere r s.files →
    (∀ x ∈ l, x.uuid = r.uuid → SameBackup r x) → StillThere r (tagsLoop action tags false l s).2.files := by
  induction l with
  | nil => intro s h _; exact h
  | cons x l ih =>
    intro s h hl
    unfold Repo.tagsLoop
    cases actTags action x.tags tags with
    | error e => exact h
    | ok t =>
      dsimp only
      rw [if_neg (by simp)]
      refine ih (h.store ?_) (fun y hy => hl y (by simp [hy]))
      intro he
      have := hl x (by simp) he
      exact ⟨this.1, this.2, this.3, this.4⟩

theorem StillThere.tagsOp {r : Rev} {s : Repo} (hn : Named s.files) (hr : onDisk s.files r.uuid = some r) (sch : Schedule)
    (pd : String → Option Int) (action spec : String) (tags : Finset String) (expect : Option (Finset String)) (force : Bool) :
    StillThere r (s.tagsOp sch pd action spec tags expect false force).2.files := by
  have h0 : StillThere r s.scan.files := ⟨r, hr, .refl r⟩
  unfold Repo.tagsOp
  dsimp only
  cases hf : findRevisions ⟨s.scan.history, pd⟩ spec with
  | error e => exact h0
  | ok revs =>
    dsimp only
    split
    · exact h0
    · generalize (revs.any fun r => match expect with
        | none => false
        | some t => decide (t ≠ r.tags)) = b
      cases b
      · refine StillThere.tagsLoop _ _ _ h0 (fun x hx he => ?_)
        have h1 := (C37_results_from_history _ (nodup_of_map_uuid s.scan_nodup) spec revs hf).1 x hx
        have h2 := (Repo.scan_mem hn x).1 h1
        rw [he, hr] at h2
        cases h2
        exact .refl r
      · exact h0

theorem StillThere.verifyMark {env : Env} {taken : Dict String Bytes} {s : Src} (h : Mem env taken s) {order : List Hash → List Hash}
    (ho : ∀ l, (order l).Perm l) {x r : Rev} (hx : x ∈ s.repo.history) (hr : onDisk s.repo.files r.uuid = some r)
    (hl : r.server = "") (hc : r.clean = true) : StillThere r (Src.verifyMark env order s x).2.repo.files := by
  by_cases hne : r.uuid = x.uuid
  · have hxr : x = r := by
      have := (h.sync.mem x).1 hx
      rw [← hne, hr] at this
      cases this; rfl
    subst hxr
    unfold Src.verifyMark
    cases hv : verifyCandidates order s x with
    | error e => exact ⟨x, hr, .refl x⟩
    | ok cand =>
      dsimp only
      cases hb : firstBad env s.w cand with
      | some b =>
        exfalso
        have hmiss := firstBad_some h.disk.wok cand hb
        have hbm := (firstBad_mem hb).1
        rw [(verifyCandidates_ok ho hv).1] at hbm
        obtain ⟨⟨m, m1, m2⟩, _⟩ := hbm
        obtain ⟨c, _, m', n1, _, n3, _⟩ := h.disk.good _ _ hr hl hc
        rw [n1] at m1
        cases m1
        obtain ⟨d, hd⟩ := n3 _ m2
        rw [hmiss] at hd
        cases hd
      | none =>
        dsimp only
        split
        · exact ⟨x, hr, .refl x⟩
        · exact StillThere.store (s := s.repo) ⟨x, hr, .refl x⟩ (fun _ => ⟨rfl, rfl, rfl, rfl⟩)
  · exact ⟨r, by rw [verifyMark_files hne]; exact hr, .refl r⟩

theorem Spares.step {env : Env} {u : String} {s s' : Sys} (h : Spares env u s s') : Step env s s' := by
  cases h with
  | guest img => exact .guest _ _
  | backup af o ho uuid ts tags hu hf => exact .backup _ _ _ _ _ _ hu hf
  | killed _ af o uuid ts tags hu hf hk => exact .killed _ _ _ _ _ _ _ hu hf hk
  | rm revs h => exact .rm _ _ (fun r hr => (h r hr).1)
  | expire sch hs pd now h => exact .expire _ _ _ _
  | distrust revs h => exact .distrust _ _ h
  | tags sch pd action spec tags expect force => exact .tags _ _ _ _ _ _ _ _ _
  | verify order ho r h => exact .verify _ _ _ h
  | verifyKilled order ho r h => exact .verifyKilled _ _ _ h
  | gc => exact .gc _
  | gcKilled left => exact .gcKilled _ _
  | remote r h hu => exact .remote _ _ h
  | drop r hu => exact .drop _ _
  | snapsGone keep => exact .snapsGone _ _
  | snapForeign name content h => exact .snapForeign _ _ _ h

theorem gcSome_repo (left : Hash → Bool) (s : Src) : (gcSome left s).repo = s.repo := by
  unfold gcSome; split <;> rfl

theorem verify_repo (env : Env) (order : List Hash → List Hash) (s : Src) (r : Rev) :
    (Src.verify env order s r).2.repo = (Src.verifyMark env order s r).2.repo := by
  unfold Src.verify
  generalize Src.verifyMark env order s r = g
  obtain ⟨g1, g2⟩ := g
  cases g1 with
  | error e => rfl
  | ok x => exact gc_repo g2

/-- One event. -/
theorem Spares.kept {env : Env} {s0 s s' : Sys} (h0 : Initial s0) (hs : Steps env s0 s) {u : String} (h : Spares env u s s')
    (hcoll : CollFree env.H s'.src.w.log) {r : Rev} (hr : onDisk s.src.repo.files u = some r) (hl : r.server = "")
    (hc : r.clean = true) : StillThere r s'.src.repo.files := by
  have hlog := h.step.log
  have hcoll0 : CollFree env.H s.src.w.log := fun a ha b hb => hcoll a (hlog ha) b (hlog hb)
  have hg := (Good.initial (env := env) h0).steps hcoll0 hs (fun _ h => h)
  have hn : Named s.src.repo.files := hg.disk.named
  have hu := onDisk_uuid hn hr
  subst hu
  have hself : StillThere r s.src.repo.files := ⟨r, hr, .refl r⟩
  have hm := hg.disk.connect
  have hsame : ∀ x ∈ s.connect.src.repo.history, x.uuid = r.uuid → SameBackup r x := by
    intro x hx he
    have h2 := (Repo.scan_mem hn x).1 hx
    rw [he, hr] at h2
    cases h2
    exact .refl r
  cases h with
  | guest img => exact hself
  | backup af o ho uuid ts tags hu hf =>
    obtain ⟨t, h1⟩ := C83_none_removed env s0 s h0 hs af o ho uuid ts tags hu hcoll r hr hc hl (by
      intro he
      have := hu.file
      rw [← he] at this
      rw [onDisk_eq_some] at hr
      simp [Dict.has, hr] at this)
    exact ⟨_, h1, rfl, rfl, rfl, rfl⟩
  | killed _ af o uuid ts tags hu hf hk =>
    rcases (C45_complete_survive_partial env s0 s s' h0 hs af o uuid ts tags hu hf hk hcoll r hr hl hc).1 with h1 | h1
    · exact ⟨_, h1, .refl r⟩
    · exact ⟨_, h1, rfl, rfl, rfl, rfl⟩
  | rm revs h =>
    refine ⟨r, ?_, .refl r⟩
    show onDisk (s.connect.src.repo.rm revs).files r.uuid = some r
    have key : ∀ (l : List Rev) (x : Repo), (∀ y ∈ l, y.uuid ≠ r.uuid) → onDisk (x.rm l).files r.uuid = onDisk x.files r.uuid := by
      intro l
      induction l with
      | nil => intro x _; rfl
      | cons y l ih =>
        intro x hx
        have he : x.rm (y :: l) = (x.remove y).rm l := rfl
        rw [he, ih _ (fun z hz => hx z (by simp [hz]))]
        exact remove_files_ne (fun e => hx y (by simp) e.symm) false
    rw [key revs _ (fun y hy => (h y hy).2)]
    exact hr
  | expire sch hsch pd now h =>
    obtain ⟨tag, ht⟩ := h r hr
    refine ⟨{ r with tags := keptTags sch now s.connect.src.repo.history r }, ?_, rfl, rfl, rfl, rfl⟩
    show onDisk (sch.expire pd now s.connect.src.repo).2.files r.uuid = _
    rw [nolog_expire]
    rw [(C27_expiry_exact sch hsch now pd (nolog s.connect.src.repo) hn rfl).1]
    refine ⟨r, hr, rfl, ?_⟩
    rintro ⟨he, _⟩
    have he' : keptTags sch now s.connect.src.repo.history r = ∅ := he
    rw [he'] at ht
    simp at ht
  | distrust revs h => exact StillThere.distrust revs (s := s.connect.src.repo) hself (fun x hx => hsame x (h x hx))
  | tags sch pd action spec tags expect force => exact StillThere.tagsOp (s := s.connect.src.repo) hn hr sch pd action spec tags expect force
  | verify order ho x h =>
    show StillThere r (Src.verify env order s.connect.src x).2.repo.files
    rw [verify_repo]
    exact StillThere.verifyMark hm ho h hr hl hc
  | verifyKilled order ho x h => exact StillThere.verifyMark hm ho h hr hl hc
  | gc =>
    show StillThere r s.connect.src.gc.2.repo.files
    rw [gc_repo]; exact hself
  | gcKilled left =>
    show StillThere r (gcSome left s.connect.src).repo.files
    rw [gcSome_repo]; exact hself
  | remote x h hu =>
    refine ⟨r, ?_, .refl r⟩
    show onDisk (s.src.repo.files.set x.uuid ⟨false, x⟩) r.uuid = some r
    rw [onDisk_set, if_neg (fun e => hu e.symm)]; exact hr
  | drop x hu =>
    refine ⟨r, ?_, .refl r⟩
    show onDisk (s.src.repo.drop x).files r.uuid = some r
    rw [drop_files, if_neg (fun e => hu e.symm)]; exact hr
  | snapsGone keep => exact hself
  | snapForeign name content h => exact hself

theorem SparesAll.steps {env : Env} {u : String} {s0 s s' : Sys} (hs : Steps env s0 s) (h : SparesAll env u s s') : Steps env s0 s' := by
  induction h with
  | nil => exact hs
  | cons _ h' ih => exact .cons ih h'.step

theorem SparesAll.log {env : Env} {u : String} {s s' : Sys} (h : SparesAll env u s s') : s.src.w.log ⊆ s'.src.w.log := by
  induction h with
  | nil => exact fun _ h => h
  | cons _ h' ih => exact fun x hx => h'.step.log (ih hx)

/-- **C100** A complete revision of this server stays in the repository, complete, through any number of events that are not meant to
remove it: its record changes at most in tags and trust, and it restores to the same bytes, those of its snapshot. -/
theorem C100_lasts (env : Env) (s0 s s' : Sys) (h0 : Initial s0) (hs : Steps env s0 s) (u : String) (h : SparesAll env u s s')
    (hcoll : CollFree env.H s'.src.w.log) (r : Rev) (hr : onDisk s.src.repo.files u = some r) (hl : r.server = "")
    (hc : r.clean = true) :
    ∃ y, onDisk s'.src.repo.files u = some y ∧ SameBackup r y ∧
      ∃ c, s.ceph.taken.get? u = some c ∧ (∀ target, restore env s.connect.src.w r target = (.ok (), some c)) ∧
        (∀ target, restore env s'.connect.src.w y target = (.ok (), some c)) ∧ restoreOut env s'.connect.src.w y = (.ok (), c) := by
  have hcoll0 : CollFree env.H s.src.w.log := fun a ha b hb => hcoll a (h.log ha) b (h.log hb)
  have hu : r.uuid = u := onDisk_uuid ((Good.initial (env := env) h0).steps hcoll0 hs (fun _ h => h)).disk.named hr
  obtain ⟨c, c1, c2, _⟩ := C13_restores_snapshot env s0 s h0 hs hcoll0 r (by rw [hu]; exact hr) hl hc
  have key : ∃ y, onDisk s'.src.repo.files u = some y ∧ SameBackup r y ∧ s'.ceph.taken.get? u = some c := by
    induction h with
    | nil => exact ⟨r, hr, .refl r, by rw [← hu]; exact c1⟩
    | @cons b d hb hstep ih =>
      have hcollb : CollFree env.H b.src.w.log := fun x hx y hy => hcoll x (hstep.step.log hx) y (hstep.step.log hy)
      obtain ⟨y, y1, y2, y3⟩ := ih hcollb
      obtain ⟨z, z1, z2⟩ := hstep.kept h0 (hb.steps hs) hcoll y1 (y2.server.trans hl) (by
        show y.stats.has "duration" = true
        rw [y2.stats]; exact hc)
      rw [y2.uuid, hu] at z1
      refine ⟨z, z1, y2.trans z2, ?_⟩
      rw [C13_record_stable env b d hstep.step u (fun hf => ?_)]
      · exact y3
      · have := hf.file
        rw [onDisk_eq_some] at y1
        simp [Dict.has, y1] at this
  obtain ⟨y, y1, y2, y3⟩ := key
  obtain ⟨c', d1, d2, d3⟩ := C13_restores_snapshot env s0 s' h0 (h.steps hs) hcoll y (by rw [y2.uuid, hu]; exact y1)
    (y2.server.trans hl) (by show y.stats.has "duration" = true; rw [y2.stats]; exact hc)
  rw [y2.uuid, hu, y3] at d1
  cases d1
  exact ⟨y, y1, y2, c, by rw [← hu]; exact c1, c2, d2, d3⟩

/-! ## A concrete case -/

/-- After the first backup: the guest changes the image, a second backup is made, garbage is collected, and the second revision is
removed. -/
def exLater : Sys :=
  let s := ({ exSecond.connect with src := exSecond.connect.src.gc.2 } : Sys)
  { s.connect with src := { s.connect.src with repo := s.connect.src.repo.rm (s.connect.src.repo.history.filter (fun r => decide (r.uuid = "b"))) } }

theorem exLater_spares : SparesAll Test.env "a" exFirst exLater := by
  refine .cons (.cons (.cons (.cons (.nil _) (.guest _ [0, 0, 0, 0, 2, 2, 2, 2])) (.backup _ false (idealRbd [0, 0, 0, 0, 2, 2, 2, 2] [1])
    (fun _ => List.Perm.refl _) "b" 20 {"daily"} exChanged_fresh ?_)) (.gc _)) (.rm _ _ ?_)
  · exact exSecond_works.faithful
  · intro r hr
    rw [List.mem_filter] at hr
    refine ⟨hr.1, ?_⟩
    have : r.uuid = "b" := by simpa using hr.2
    rw [this]
    decide

theorem exFirst_steps : Steps Test.env exNew exFirst :=
  .cons (.nil _) (.backup _ _ _ _ _ _ exFirst_fresh exFirst_works.faithful)

/-- Test (C100): the first revision is still there and restores; the second one is not. -/
example : (∃ y, onDisk exLater.src.repo.files "a" = some y ∧ SameBackup (finished (idealRbd [] []) (newRev "a" 10 {"daily"})) y ∧
    ∃ c, exFirst.ceph.taken.get? "a" = some c ∧ c = [0, 0, 0, 0, 1, 1, 1, 1] ∧
      ∀ target, restore Test.env exLater.connect.src.w y target = (.ok (), some c)) ∧ onDisk exLater.src.repo.files "b" = none := by
  obtain ⟨y, h1, h2, c, h3, _, h4, _⟩ := C100_lasts Test.env exNew exFirst exLater exNew_initial exFirst_steps "a" exLater_spares
    (Test.collFree _) (finished (idealRbd [] []) (newRev "a" 10 {"daily"})) (by decide +kernel) (by decide +kernel) (by decide +kernel)
  have hc : exFirst.ceph.taken.get? "a" = some [0, 0, 0, 0, 1, 1, 1, 1] := by decide +kernel
  rw [hc] at h3
  cases h3
  exact ⟨⟨y, h1, h2, _, hc, rfl, h4⟩, by decide +kernel⟩

end Verif.Backup
