import Verif.Spec.Failing
import Verif.Props.Lasting
import Verif.Props.Passes
/-!
# C140: while no backup succeeds, nothing expires
-/
namespace Verif.Failing
open Verif Verif.Chunked Verif.Spec Verif.Rbd Verif.Repo Verif.Files Verif.Diff Verif.Backup Verif.Daemon Verif.Daemon.Spec

/-- The record is still there; only its trust may have changed. -/
def Intact (r : Rev) (files : Dict String RevFile) : Prop := ∃ t, onDisk files r.uuid = some { r with trust := t }

theorem onDisk_drop (s : Repo) (x : Rev) (u : String) : onDisk (s.drop x).files u = if u = x.uuid then none else onDisk s.files u := by
  rw [drop_files]

theorem foldl_drop_ne {u : String} : ∀ (gone : List Rev) (s : Repo), (∀ r ∈ gone, r.uuid ≠ u) →
    onDisk (gone.foldl (fun s r => s.drop r) s).files u = onDisk s.files u
  | [], _, _ => rfl
  | x :: gone, s, h => by
    rw [List.foldl_cons, foldl_drop_ne gone _ (fun r hr => h r (by simp [hr])), onDisk_drop, if_neg]
    exact fun e => h x (by simp) e.symm

theorem exchange_ne {u : String} : ∀ (changes : List (Bool × Rev)) (s : Repo), (∀ x ∈ changes, x.2.uuid ≠ u) →
    onDisk (exchange changes s).files u = onDisk s.files u
  | [], _, _ => rfl
  | (w, x) :: changes, s, h => by
    have hx : x.uuid ≠ u := h (w, x) (by simp)
    have ih := exchange_ne changes (if w then s.writeInfo x else s.drop x) (fun r hr => h r (by simp [hr]))
    show onDisk (exchange changes (if w then s.writeInfo x else s.drop x)).files u = _
    rw [ih]
    cases w
    · exact (onDisk_drop s x u).trans (if_neg (fun e => hx e.symm))
    · show onDisk (s.files.set x.uuid ⟨false, x⟩) u = _
      rw [onDisk_set, if_neg (fun e => hx e.symm)]

theorem foldl_drop_spares {env : Env} {u : String} {s0 : Sys} : ∀ (gone : List Rev) (s : Sys), (∀ r ∈ gone, r.uuid ≠ u) →
    SparesAll env u s0 s →
    SparesAll env u s0 { s with src := { s.src with repo := gone.foldl (fun s r => s.drop r) s.src.repo } }
  | [], _, _, h0 => h0
  | x :: gone, s, h, h0 =>
    foldl_drop_spares gone { s with src := { s.src with repo := s.src.repo.drop x } } (fun r hr => h r (by simp [hr]))
      (.cons h0 (.drop s x (h x (by simp))))

theorem exchange_spares {env : Env} {u : String} {s0 : Sys} : ∀ (changes : List (Bool × Rev)) (s : Sys),
    (∀ x ∈ changes, x.2.uuid ≠ u ∧ x.2.server ≠ "") → SparesAll env u s0 s →
    SparesAll env u s0 { s with src := { s.src with repo := exchange changes s.src.repo } }
  | [], _, _, h0 => h0
  | (true, x) :: changes, s, h, h0 =>
    exchange_spares changes { s with src := { s.src with repo := s.src.repo.writeInfo x } } (fun r hr => h r (by simp [hr]))
      (.cons h0 (.remote s x (h (true, x) (by simp)).2 (h (true, x) (by simp)).1))
  | (false, x) :: changes, s, h, h0 =>
    exchange_spares changes { s with src := { s.src with repo := s.src.repo.drop x } } (fun r hr => h r (by simp [hr]))
      (.cons h0 (.drop s x (h (false, x) (by simp)).1))

/-- An action that is not an expiry is not meant to remove a complete revision of this server. -/
theorem Effect.spares {env : Env} {a : Act} {ok : Bool} {s s' : Sys} (h : Effect env a ok s s') (ha : a ≠ .expire) {u : String} {r : Rev}
    (hr : onDisk s.src.repo.files u = some r) (hl : r.server = "") (hc : r.clean = true) : SparesAll env u s s' := by
  cases h with
  | quiet a ok s h => exact .nil _
  | clean a ha ok s gone h =>
    refine foldl_drop_spares gone s (fun x hx he => ?_) (.nil s)
    obtain ⟨h1, h2, _⟩ := h x hx
    rw [he, hr] at h1; cases h1; rw [hc] at h2; cases h2
  | exchange a ha ok s changes h =>
    refine exchange_spares changes s (fun x hx => ⟨fun he => ?_, (h x hx).1⟩) (.nil s)
    exact (h x hx).2 r (by rw [he]; exact hr) hl
  | backup s af o ho uuid ts tags hu hf => exact .cons (.nil s) (.backup s af o ho uuid ts tags hu hf)
  | killed s s' af o uuid ts tags hu hf hk => exact .cons (.nil s) (.killed s s' af o uuid ts tags hu hf hk)
  | full s k s' af o uuid ts tags hu hf hk ha =>
    refine ha.spares (fun he => ?_) (.cons (.nil s) (.killed s k af o uuid ts tags hu hf hk))
    have := hu.file
    rw [← he] at this
    rw [onDisk_eq_some] at hr
    simp [Dict.has, hr] at this
  | expire s ok sch pd now => exact absurd rfl ha
  | gc s ok => exact .cons (.nil s) (.gc s)
  | gcStopped s left => exact .cons (.nil s) (.gcKilled s left)

theorem Intact.refl {r : Rev} {files : Dict String RevFile} (h : onDisk files r.uuid = some r) : Intact r files := ⟨r.trust, h⟩

theorem Intact.store {r x : Rev} {s : Repo} (h : Intact r s.files) (hx : x.uuid = r.uuid → ∃ t, x = { r with trust := t }) :
    Intact r (s.store x).files := by
  unfold Intact
  rw [store_files]
  split
  · rename_i he
    obtain ⟨t, rfl⟩ := hx he.symm
    exact ⟨t, rfl⟩
  · exact h

theorem Intact.distrust {r : Rev} (l : List Rev) : ∀ {s : Repo}, Intact r s.files →
    (∀ x ∈ l, x.uuid = r.uuid → ∃ t, x = { r with trust := t }) → Intact r (s.distrust l).2.files := by
  induction l with
  | nil => intro s h _; exact h
  | cons x l ih =>
    intro s h hl
    unfold Repo.distrust
    split
    · exact h
    · refine ih (h.store ?_) (fun y hy => hl y (by simp [hy]))
      intro he
      obtain ⟨t, rfl⟩ := hl x (by simp) he
      exact ⟨_, rfl⟩

theorem Intact.verifyMark {env : Env} {taken : Dict String Bytes} {s : Src} (h : Mem env taken s) {order : List Hash → List Hash}
    (ho : ∀ l, (order l).Perm l) {x r : Rev} (hx : x ∈ s.repo.history) (hr : onDisk s.repo.files r.uuid = some r)
    (hl : r.server = "") (hc : r.clean = true) : Intact r (Src.verifyMark env order s x).2.repo.files := by
  by_cases hne : r.uuid = x.uuid
  · have hxr : x = r := by
      have := (h.sync.mem x).1 hx
      rw [← hne, hr] at this
      cases this; rfl
    subst hxr
    unfold Src.verifyMark
    cases hv : verifyCandidates order s x with
    | error e => exact .refl hr
    | ok cand =>
      dsimp only
      cases hb : firstBad env s.w cand with
      | some b =>
        exfalso
        have hmiss := firstBad_some h.disk.wok cand hb
        have hbm := (firstBad_mem hb).1
        rw [(verifyCandidates_ok ho hv).1] at hbm
        obtain ⟨⟨m, m1, m2⟩, _⟩ := hbm
        obtain ⟨c, _, m', n1, _, n3, _⟩ := h.disk.good _ _ hr hl hc
        rw [n1] at m1
        cases m1
        obtain ⟨d, hd⟩ := n3 _ m2
        rw [hmiss] at hd
        cases hd
      | none =>
        dsimp only
        split
        · exact .refl hr
        · exact Intact.store (s := s.repo) (.refl hr) (fun _ => ⟨_, rfl⟩)
  · exact ⟨r.trust, by rw [verifyMark_files hne]; exact hr⟩

theorem fresh_ne {s : Sys} {uuid : String} (hu : Fresh s uuid) {r : Rev} (hr : onDisk s.src.repo.files r.uuid = some r) : r.uuid ≠ uuid := by
  intro he
  have := hu.file
  rw [← he] at this
  rw [onDisk_eq_some] at hr
  simp [Dict.has, hr] at this

/-- An action that is not an expiry leaves the record of a complete revision alone, up to its trust. -/
theorem Effect.intact {env : Env} {s0 s s' : Sys} {a : Act} {ok : Bool} (h0 : Initial s0) (hs : Steps env s0 s)
    (h : Effect env a ok s s') (ha : a ≠ .expire) (hcoll : CollFree env.H s'.src.w.log) {r : Rev}
    (hr : onDisk s.src.repo.files r.uuid = some r) (hl : r.server = "") (hc : r.clean = true) : Intact r s'.src.repo.files := by
  have hsp := h.spares ha hr hl hc
  have hlog := hsp.log
  cases h with
  | quiet a ok s h => exact .refl hr
  | clean a ha ok s gone h =>
    refine ⟨r.trust, ?_⟩
    show onDisk (gone.foldl (fun s r => s.drop r) s.src.repo).files r.uuid = _
    rw [foldl_drop_ne gone _ (fun x hx he => ?_), hr]
    obtain ⟨h1, h2, _⟩ := h x hx
    rw [he, hr] at h1; cases h1; rw [hc] at h2; cases h2
  | exchange a ha ok s changes h =>
    refine ⟨r.trust, ?_⟩
    show onDisk (Failing.exchange changes s.src.repo).files r.uuid = _
    rw [exchange_ne changes _ (fun x hx he => ?_), hr]
    exact (h x hx).2 r (by rw [he]; exact hr) hl
  | backup s af o ho uuid ts tags hu hf =>
    exact C83_none_removed env s0 s h0 hs af o ho uuid ts tags hu hcoll r hr hc hl (fresh_ne hu hr)
  | killed s s' af o uuid ts tags hu hf hk =>
    rcases (C45_complete_survive_partial env s0 s s' h0 hs af o uuid ts tags hu hf hk hcoll r hr hl hc).1 with h1 | h1
    · exact .refl h1
    · exact ⟨_, h1⟩
  | full s k s' af o uuid ts tags hu hf hk ha =>
    have hcollk : CollFree env.H k.src.w.log := by
      cases ha with
      | nothing => exact hcoll
      | snaps keep => exact hcoll
      | drop x hx => exact hcoll
    have hk' : Intact r k.src.repo.files := by
      rcases (C45_complete_survive_partial env s0 s k h0 hs af o uuid ts tags hu hf hk hcollk r hr hl hc).1 with h1 | h1
      · exact .refl h1
      · exact ⟨_, h1⟩
    cases ha with
    | nothing => exact hk'
    | snaps keep => exact hk'
    | drop x hx =>
      obtain ⟨t, ht⟩ := hk'
      refine ⟨t, ?_⟩
      show onDisk (k.src.repo.drop x).files r.uuid = _
      rw [onDisk_drop, if_neg (by rw [hx]; exact fresh_ne hu hr)]
      exact ht
  | expire s ok sch pd now => exact absurd rfl ha
  | gc s ok =>
    refine ⟨r.trust, ?_⟩
    show onDisk s.connect.src.gc.2.repo.files r.uuid = _
    rw [gc_repo]; exact hr
  | gcStopped s left =>
    refine ⟨r.trust, ?_⟩
    show onDisk (gcSome left s.connect.src).repo.files r.uuid = _
    rw [gcSome_repo]; exact hr

theorem Meanwhile.spares {env : Env} {u : String} {s s' : Sys} (h : Meanwhile env s s') : Spares env u s s' := by
  cases h with
  | guest img => exact .guest _ _
  | snapsGone keep => exact .snapsGone _ _
  | snapForeign name content h => exact .snapForeign _ _ _ h
  | distrust revs h => exact .distrust _ _ h
  | verify order ho r h => exact .verify _ _ ho _ h
  | gc => exact .gc _

theorem Meanwhile.intact {env : Env} {s0 s s' : Sys} (h0 : Initial s0) (hs : Steps env s0 s) (h : Meanwhile env s s')
    (hcoll : CollFree env.H s'.src.w.log) {r : Rev} (hr : onDisk s.src.repo.files r.uuid = some r) (hl : r.server = "")
    (hc : r.clean = true) : Intact r s'.src.repo.files := by
  have hlog := (h.spares (u := r.uuid)).step.log
  have hcoll0 : CollFree env.H s.src.w.log := fun a ha b hb => hcoll a (hlog ha) b (hlog hb)
  have hg := (Good.initial (env := env) h0).steps hcoll0 hs (fun _ h => h)
  have hn : Named s.src.repo.files := hg.disk.named
  cases h with
  | guest img => exact .refl hr
  | snapsGone keep => exact .refl hr
  | snapForeign name content h => exact .refl hr
  | distrust revs h =>
    refine Intact.distrust revs (s := s.connect.src.repo) (.refl hr) (fun x hx he => ?_)
    have h2 := (Repo.scan_mem hn x).1 (h x hx)
    rw [he, hr] at h2
    cases h2
    exact ⟨_, rfl⟩
  | verify order ho x h =>
    show Intact r (Src.verify env order s.connect.src x).2.repo.files
    rw [verify_repo]
    exact Intact.verifyMark hg.disk.connect ho h hr hl hc
  | gc =>
    refine ⟨r.trust, ?_⟩
    show onDisk s.connect.src.gc.2.repo.files r.uuid = _
    rw [gc_repo]; exact hr

theorem foldl_drop_steps {env : Env} {s0 : Sys} : ∀ (gone : List Rev) (s : Sys), Steps env s0 s →
    Steps env s0 { s with src := { s.src with repo := gone.foldl (fun s r => s.drop r) s.src.repo } }
  | [], _, h0 => h0
  | x :: gone, s, h0 =>
    foldl_drop_steps gone { s with src := { s.src with repo := s.src.repo.drop x } } (.cons h0 (.drop s x))

theorem exchange_steps {env : Env} {s0 : Sys} : ∀ (changes : List (Bool × Rev)) (s : Sys), (∀ x ∈ changes, x.2.server ≠ "") →
    Steps env s0 s → Steps env s0 { s with src := { s.src with repo := exchange changes s.src.repo } }
  | [], _, _, h0 => h0
  | (true, x) :: changes, s, h, h0 =>
    exchange_steps changes { s with src := { s.src with repo := s.src.repo.writeInfo x } } (fun r hr => h r (by simp [hr]))
      (.cons h0 (.remote s x (h (true, x) (by simp))))
  | (false, x) :: changes, s, h, h0 =>
    exchange_steps changes { s with src := { s.src with repo := s.src.repo.drop x } } (fun r hr => h r (by simp [hr]))
      (.cons h0 (.drop s x))

/-- The actions of a pass are events of a history of the repository. -/
theorem Effect.steps {env : Env} {a : Act} {ok : Bool} {s0 s s' : Sys} (h : Effect env a ok s s') (hs : Steps env s0 s) : Steps env s0 s' := by
  cases h with
  | quiet a ok s h => exact hs
  | clean a ha ok s gone h => exact foldl_drop_steps gone s hs
  | exchange a ha ok s changes h => exact exchange_steps changes s (fun x hx => (h x hx).1) hs
  | backup s af o ho uuid ts tags hu hf => exact .cons hs (.backup s af o uuid ts tags hu hf)
  | killed s s' af o uuid ts tags hu hf hk => exact .cons hs (.killed s s' af o uuid ts tags hu hf hk)
  | full s k s' af o uuid ts tags hu hf hk ha => exact ha.steps (.cons hs (.killed s k af o uuid ts tags hu hf hk))
  | expire s ok sch pd now => exact .cons hs (.expire s sch pd now)
  | gc s ok => exact .cons hs (.gc s)
  | gcStopped s left => exact .cons hs (.gcKilled s left)

theorem Does.steps {env : Env} {failing : Act → Bool} {acts : List Act} {s0 s s' : Sys} (h : Does env failing acts s s')
    (hs : Steps env s0 s) : Steps env s0 s' := by
  induction h with
  | nil => exact hs
  | act x _ he ih => exact he.steps (ih hs)
  | meanwhile _ hm ih => exact .cons (ih hs) (hm.spares (u := "")).step

theorem Runs.steps {env : Env} {l : List (Pass × List Act)} {s0 s s' : Sys} (h : Runs env l s s') : Steps env s0 s → Steps env s0 s' := by
  induction h with
  | nil => exact id
  | cons p acts h _ ih => exact fun hs => ih (h.steps hs)

theorem collFree_back {env : Env} {s s' : Sys} (h : Steps env s s') (hcoll : CollFree env.H s'.src.w.log) :
    CollFree env.H s.src.w.log := fun a ha b hb => hcoll a (h.log ha) b (h.log hb)

theorem _root_.Verif.Backup.SparesAll.append {env : Env} {u : String} {a b c : Sys} (h : SparesAll env u a b) (h' : SparesAll env u b c) : SparesAll env u a c := by
  induction h' with
  | nil => exact h
  | cons _ hs ih => exact .cons ih hs

/-- A pass without an expiry. -/
theorem Does.kept {env : Env} {failing : Act → Bool} {acts : List Act} {s0 s s' : Sys} (h0 : Initial s0) (hs : Steps env s0 s)
    (h : Does env failing acts s s') (ha : Act.expire ∉ acts) (hcoll : CollFree env.H s'.src.w.log) {r : Rev}
    (hr : onDisk s.src.repo.files r.uuid = some r) (hl : r.server = "") (hc : r.clean = true) :
    SparesAll env r.uuid s s' ∧ Intact r s'.src.repo.files := by
  induction h with
  | nil => exact ⟨.nil _, .refl hr⟩
  | @act acts a b c x h he ih =>
    obtain ⟨i1, t, i2⟩ := ih hs (fun hm => ha (by simp [hm])) (collFree_back (he.steps (.nil b)) hcoll) hr
    have hx : x ≠ .expire := fun e => ha (by simp [e])
    refine ⟨i1.append (he.spares (r := { r with trust := t }) hx i2 hl hc), ?_⟩
    obtain ⟨t', k⟩ := he.intact (r := { r with trust := t }) h0 (h.steps hs) hx hcoll i2 hl hc
    exact ⟨t', k⟩
  | @meanwhile acts a b c h hm ih =>
    obtain ⟨i1, t, i2⟩ := ih hs ha (collFree_back (.cons (.nil b) (hm.spares (u := "")).step) hcoll) hr
    refine ⟨.cons i1 hm.spares, ?_⟩
    obtain ⟨t', k⟩ := hm.intact (r := { r with trust := t }) h0 (h.steps hs) hcoll i2 hl hc
    exact ⟨t', k⟩

/-- Passes without an expiry. -/
theorem Runs.kept {env : Env} {l : List (Pass × List Act)} {s0 s s' : Sys} (h0 : Initial s0) (h : Runs env l s s') :
    Steps env s0 s → (∀ x ∈ l, Act.expire ∉ x.2) → CollFree env.H s'.src.w.log → ∀ {r : Rev},
    onDisk s.src.repo.files r.uuid = some r → r.server = "" → r.clean = true →
    SparesAll env r.uuid s s' ∧ Intact r s'.src.repo.files := by
  induction h with
  | nil => intro _ _ _ r hr _ _; exact ⟨.nil _, .refl hr⟩
  | @cons l a b c p acts h hrest ih =>
    intro hs hl hcoll r hr hloc hc
    obtain ⟨i1, t, i2⟩ := h.kept h0 hs (hl (p, acts) (by simp)) (collFree_back (hrest.steps (.nil b)) hcoll) hr hloc hc
    obtain ⟨k1, t', k2⟩ := ih (h.steps hs) (fun x hx => hl x (by simp [hx])) hcoll (r := { r with trust := t }) i2 hloc hc
    exact ⟨i1.append k1, t', k2⟩

/-- No pass of which the backup fails gets as far as the expiry. -/
theorem no_expire (j : Retry) (p : Pass) (hp : ∀ tags, p.failing (.backup tags) = true) : Act.expire ∉ (pass j p).1 := by
  unfold pass
  split
  · simp
  · cases hpl : p.planned with
    | error e => simp
    | ok x =>
      obtain ⟨t, tags⟩ := x
      have key : Act.expire ∉ (runSteps p.failing (backupSteps p tags)).1 := by
        unfold backupSteps
        simp only [runSteps, hp]
        split
        · simp
        · split
          · simp
          · simp
      have key' : Act.expire ∉ (runSteps p.failing [.pull, .callback]).1 := by
        intro h
        have := (runSteps_prefix p.failing _).subset h
        simp at this
      dsimp only
      unfold tryBlock
      split
      · simpa using key
      · split
        · simpa using key'
        · simpa using key

theorem runForever_no_expire : ∀ (ps : List Pass) (j : Option Retry), (∀ p ∈ ps, ∀ tags, p.failing (.backup tags) = true) →
    ∀ x ∈ ps.zip (runForever j ps), Act.expire ∉ x.2
  | [], _, _, x, hx => by simp at hx
  | _ :: _, none, _, x, hx => by simp [runForever] at hx
  | p :: ps, some j, h, x, hx => by
    simp only [runForever, List.zip_cons_cons, List.mem_cons] at hx
    rcases hx with rfl | hx
    · exact no_expire j p (h p (by simp))
    · exact runForever_no_expire ps (pass j p).2 (fun q hq => h q (by simp [hq])) x hx

theorem mem_runSteps_ok (f : Act → Bool) : ∀ (pre post : List Act) (a : Act), a ∉ pre → a ∈ (runSteps f (pre ++ post)).1 →
    ∀ b ∈ pre, b ∈ (runSteps f (pre ++ post)).1 ∧ f b = false
  | [], _, _, _, _, b, hb => by simp at hb
  | x :: pre, post, a, hna, ha, b, hb => by
    simp only [List.cons_append, runSteps] at ha ⊢
    split at ha
    · simp only [List.mem_singleton] at ha
      exact absurd (by simp [ha]) hna
    · rename_i hf
      rw [if_neg hf]
      simp only [List.mem_cons] at ha
      have ha' : a ∈ (runSteps f (pre ++ post)).1 := by
        rcases ha with rfl | ha
        · exact absurd (by simp) hna
        · exact ha
      rcases List.mem_cons.1 hb with rfl | hb
      · exact ⟨by simp, by simpa using hf⟩
      · obtain ⟨h1, h2⟩ := mem_runSteps_ok f pre post a (fun h => hna (by simp [h])) ha' b hb
        exact ⟨by simp [h1], h2⟩

/-- Expiry comes after a backup that has succeeded. -/
theorem expire_after_backup_pass (j : Retry) (p : Pass) (h : Act.expire ∈ (pass j p).1) :
    ∃ tags, Act.backup tags ∈ (pass j p).1 ∧ p.failing (.backup tags) = false := by
  unfold pass at h ⊢
  split at h
  · simp at h
  · rename_i hcon
    rw [if_neg hcon]
    cases hpl : p.planned with
    | error e => rw [hpl] at h; simp at h
    | ok x =>
      obtain ⟨t, tags⟩ := x
      rw [hpl] at h
      have key : Act.expire ∈ (runSteps p.failing (backupSteps p tags)).1 →
          Act.backup tags ∈ (runSteps p.failing (backupSteps p tags)).1 ∧ p.failing (.backup tags) = false := by
        intro he
        exact mem_runSteps_ok p.failing [.acquire p.fast, .clean, .backup tags, .scan, .cleanAfter, .pull] [.expire, .push, .gc, .callback]
          .expire (by simp) he (.backup tags) (by simp)
      have key' : Act.expire ∉ (runSteps p.failing [.pull, .callback]).1 := by
        intro h
        have := (runSteps_prefix p.failing _).subset h
        simp at this
      dsimp only at h ⊢
      unfold tryBlock at h ⊢
      refine ⟨tags, ?_⟩
      split at h
      · rename_i htr
        obtain ⟨k1, k2⟩ := key (by simpa using h)
        rw [if_pos htr]
        exact ⟨by simp [k1], k2⟩
      · rename_i htr
        split at h
        · exact absurd (by simpa using h) key'
        · rename_i hsk
          obtain ⟨k1, k2⟩ := key (by simpa using h)
          rw [if_neg htr, if_neg hsk]
          exact ⟨by simp [k1], k2⟩

theorem expire_after_backup : ∀ (j : Option Retry) (ps : List Pass) (x : Pass × List Act), x ∈ ps.zip (runForever j ps) →
    Act.expire ∈ x.2 → ∃ tags, Act.backup tags ∈ x.2 ∧ x.1.failing (.backup tags) = false
  | _, [], x, hx, _ => by simp at hx
  | none, _ :: _, x, hx, _ => by simp [runForever] at hx
  | some j, p :: ps, x, hx, he => by
    simp only [runForever, List.zip_cons_cons, List.mem_cons] at hx
    rcases hx with rfl | hx
    · exact expire_after_backup_pass j p he
    · exact expire_after_backup (pass j p).2 ps x hx he

/-- **C140** Through any number of passes of a job of which no backup succeeds - each fails, is killed, runs into a full disk, or is left to
another server - every complete revision of this server stays in the repository with all its tags (only its trust may change), however old
it is, and restores to the same bytes, those of its snapshot. -/
theorem C140_nothing_expires (env : Env) (s0 s s' : Sys) (h0 : Initial s0) (hs : Steps env s0 s) (j : Option Retry) (ps : List Pass)
    (h : Runs env (ps.zip (runForever j ps)) s s') (hfail : ∀ p ∈ ps, ∀ tags, p.failing (.backup tags) = true)
    (hcoll : CollFree env.H s'.src.w.log) (r : Rev) (hr : onDisk s.src.repo.files r.uuid = some r) (hl : r.server = "")
    (hc : r.clean = true) :
    ∃ t, onDisk s'.src.repo.files r.uuid = some { r with trust := t } ∧
      ∃ c, s.ceph.taken.get? r.uuid = some c ∧ (∀ target, restore env s.connect.src.w r target = (.ok (), some c)) ∧
        ∀ target, restore env s'.connect.src.w { r with trust := t } target = (.ok (), some c) := by
  obtain ⟨k1, t, k2⟩ := h.kept h0 hs (runForever_no_expire ps j hfail) hcoll hr hl hc
  obtain ⟨y, y1, _, c, c1, c2, c3, _⟩ := C100_lasts env s0 s s' h0 hs r.uuid k1 hcoll r hr hl hc
  rw [k2] at y1
  cases y1
  exact ⟨t, k2, c, c1, c2, c3⟩

/-- **C140** ... and the other way round: if after some passes a complete revision of this server is gone, or has lost a tag, a backup of
this server has succeeded in one of them. -/
theorem C140_only_after_success (env : Env) (s0 s s' : Sys) (h0 : Initial s0) (hs : Steps env s0 s) (j : Option Retry) (ps : List Pass)
    (h : Runs env (ps.zip (runForever j ps)) s s') (hcoll : CollFree env.H s'.src.w.log) (r : Rev)
    (hr : onDisk s.src.repo.files r.uuid = some r) (hl : r.server = "") (hc : r.clean = true)
    (hgone : ∀ y, onDisk s'.src.repo.files r.uuid = some y → ¬ r.tags ⊆ y.tags) :
    ∃ x ∈ ps.zip (runForever j ps), ∃ tags, Act.backup tags ∈ x.2 ∧ x.1.failing (.backup tags) = false ∧ Act.expire ∈ x.2 := by
  by_contra hno
  have hex : ∀ x ∈ ps.zip (runForever j ps), Act.expire ∉ x.2 := by
    intro x hx he
    obtain ⟨tags, h1, h2⟩ := expire_after_backup j ps x hx he
    exact hno ⟨x, hx, tags, h1, h2, he⟩
  obtain ⟨_, t, k2⟩ := h.kept h0 hs hex hcoll hr hl hc
  exact hgone _ k2 (Finset.Subset.refl _)

/-- **C140** When a backup succeeds again and no step of the pass fails, the pass ends with expiry and garbage collection. -/
theorem C140_resumes (j : Retry) (p : Pass) (t : Int) (tags : Finset String) (hc : p.connected = true) (hp : p.planned = .ok (t, tags))
    (hown : Attempted (pass j p).1) (hok : ∀ a ∈ (pass j p).1, isWork a = true → p.failing a = false) :
    Act.backup tags ∈ (pass j p).1 ∧ Act.expire ∈ (pass j p).1 ∧ Act.gc ∈ (pass j p).1 := by
  have h := C80_complete j p t tags hc hp true (by simp [hown]) hok
  have hmem : ∀ a ∈ intended true tags, a ∈ (pass j p).1 := by
    intro a ha
    rw [← h] at ha
    exact (List.mem_filter.1 ha).1
  exact ⟨hmem _ (by simp [intended]), hmem _ (by simp [intended]), hmem _ (by simp [intended])⟩

/-- A backup that counts as successful has ended with the exit code 0. -/
theorem Effect.success {env : Env} {tags : Finset String} {s s' : Sys} (h : Effect env (.backup tags) true s s') :
    ∃ af o uuid ts, (runBackup env af o uuid ts tags s.connect).1 = 0 ∧ s' = (runBackup env af o uuid ts tags s.connect).2 := by
  generalize hok : true = ok at h
  generalize ha : Act.backup tags = a at h
  cases h with
  | quiet a ok s h => subst ha; simp at h
  | clean a ha' ok s gone h => subst ha; simp at ha'
  | exchange a ha' ok s changes h => subst ha; simp at ha'
  | backup s af o ho uuid ts tags' hu hf => cases ha; exact ⟨af, o, uuid, ts, by simpa using hok.symm, rfl⟩
  | killed => cases hok
  | full => cases hok
  | expire => cases ha
  | gc => cases ha
  | gcStopped => cases ha

/-- A pass whose backup fails. -/
def exFailing : Pass :=
  { connected := true, planned := .ok (0, ∅), now := 0, triggered := false, skip := false, fast := true,
    failing := fun a => match a with
      | .backup _ => true
      | _ => false }

/-- A pass that is left to another server. -/
def exSkipping : Pass := { exFailing with skip := true }

theorem exFailing_does : Does Test.env exFailing.failing (pass .init exFailing).1 exChanged exKilled := by
  have h : (pass .init exFailing).1 = [] ++ [.connect] ++ [.waitUntil 0] ++ [.askPeers 0] ++ [.acquire true] ++ [.clean] ++ [.backup ∅] := by
    decide
  rw [h]
  refine .act _ (.act _ (.act _ (.act _ (.act _ (.act _ (.nil exChanged) (.quiet _ _ _ (by simp))) (.quiet _ _ _ (by simp)))
    (.quiet _ _ _ (by simp))) (.quiet _ _ _ (by simp))) (.clean _ (by simp) _ _ [] (by simp))) ?_
  exact .killed _ _ false _ "b" 20 _ exChanged_fresh exSecond_works.faithful exKilled_killed

/-- Test (C140): after a killed backup and a pass left to another server the revision of the first backup is still there. -/
example : ∃ s', Runs Test.env ([exFailing, exSkipping].zip (runForever (some .init) [exFailing, exSkipping])) exChanged s' ∧
    ∃ t, onDisk s'.src.repo.files "a" = some { finished (idealRbd [] []) (newRev "a" 10 {"daily"}) with trust := t } := by
  have h2 : (pass ⟨1, 120⟩ exSkipping).1 = [] ++ [.connect] ++ [.waitUntil (seconds 120)] ++ [.askPeers (seconds 120)] ++ [.pull] ++ [.callback] := by
    decide
  have hr : Runs Test.env ([exFailing, exSkipping].zip (runForever (some .init) [exFailing, exSkipping])) exChanged
      { exKilled with src := { exKilled.src with repo := exchange [] exKilled.src.repo } } := by
    refine .cons exFailing _ exFailing_does (.cons exSkipping (pass ⟨1, 120⟩ exSkipping).1 ?_ (.nil _))
    rw [h2]
    exact .act _ (.act _ (.act _ (.act _ (.act _ (.nil _) (.quiet _ _ _ (by simp))) (.quiet _ _ _ (by simp)))
      (.quiet _ _ _ (by simp))) (.exchange _ (by simp) _ _ [] (by simp))) (.quiet _ _ _ (by simp))
  refine ⟨_, hr, ?_⟩
  obtain ⟨t, ht, _⟩ := C140_nothing_expires Test.env exNew exChanged _ exNew_initial exChanged_steps (some .init) _ hr
    (by simp [exFailing, exSkipping]) (Test.collFree _) (finished (idealRbd [] []) (newRev "a" 10 {"daily"})) (by decide +kernel)
    (by decide +kernel) (by decide +kernel)
  exact ⟨t, ht⟩

/-- A pass whose backup succeeds and whose expiry fails in the end. -/
def exWorking : Pass := { exFailing with failing := fun a => decide (a = .expire) }

/-- The tag of the old revision has been removed from the schedule. -/
def exSched : Schedule := []

/-- After the second backup. -/
def exAgain : Sys := (runBackup Test.env false (idealRbd [0, 0, 0, 0, 2, 2, 2, 2] [1]) "b" 20 ∅ exChanged.connect).2

/-- After the expiry. -/
def exExpired : Sys :=
  { exAgain.connect with src := { exAgain.connect.src with
    repo := (Schedule.expire exSched (fun _ => none) (fun _ => 1000) exAgain.connect.src.repo).2 } }

/-- Test (C140): a backup succeeds, and the old revision expires. -/
example : ∃ s', Runs Test.env ([exWorking].zip (runForever (some .init) [exWorking])) exChanged s' ∧
    onDisk s'.src.repo.files "a" = none := by
  have h : (pass .init exWorking).1 = [] ++ [.connect] ++ [.waitUntil 0] ++ [.askPeers 0] ++ [.acquire true] ++ [.clean] ++ [.backup ∅] ++
      [.scan] ++ [.cleanAfter] ++ [.pull] ++ [.expire] := by
    decide
  have hb : Effect Test.env (.backup ∅) true exChanged exAgain := by
    have := Effect.backup (env := Test.env) exChanged false (idealRbd [0, 0, 0, 0, 2, 2, 2, 2] [1]) (fun _ => .refl _) "b" 20 ∅
      exChanged_fresh exSecond_works.faithful
    have he : decide ((runBackup Test.env false (idealRbd [0, 0, 0, 0, 2, 2, 2, 2] [1]) "b" 20 ∅ exChanged.connect).1 = 0) = true := by
      decide +kernel
    rw [he] at this
    exact this
  have hd : Does Test.env exWorking.failing (pass .init exWorking).1 exChanged exExpired := by
    rw [h]
    exact .act _ (.act _ (.act _ (.act _ (.act _ (.act _ (.act _ (.act _ (.act _ (.act _ (.nil exChanged) (.quiet _ _ _ (by simp)))
      (.quiet _ _ _ (by simp))) (.quiet _ _ _ (by simp))) (.quiet _ _ _ (by simp))) (.clean _ (by simp) _ _ [] (by simp))) hb)
      (.quiet _ _ _ (by simp))) (.clean _ (by simp) _ _ [] (by simp))) (.exchange _ (by simp) _ _ [] (by simp)))
      (.expire _ _ exSched (fun _ => none) (fun _ => 1000))
  exact ⟨exExpired, .cons exWorking _ hd (.nil _), by decide +kernel⟩

/-- Test (C140): the same pass without a failure. -/
example : Act.expire ∈ (pass .init { exWorking with failing := fun _ => false }).1 :=
  (C140_resumes .init { exWorking with failing := fun _ => false } 0 ∅ rfl rfl ⟨true, by decide⟩ (by simp)).2.1

end Verif.Failing
