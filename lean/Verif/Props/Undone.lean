import Verif.Proofs.TagBlind
import Verif.Props.Conc
import Verif.Props.Record
/-!
# C65: what one execution may do to a record somebody else has changed
-/
namespace Verif.Conc
open Verif Verif.Chunked Verif.Spec Verif.Rbd Verif.Repo Verif.Backup Verif.Locks Verif.Files

/-- The record with other tags, all the rest as it is. -/
def Retagged (x : Rev) (y : Option Rev) : Prop := ∃ t, y = some { x with tags := t }

/-- The record with other trust, all the rest as it is. -/
def Retrusted (x : Rev) (y : Option Rev) : Prop := ∃ t, y = some { x with trust := t }

/-- What the body of a function may do to the record `x`: after it, there is `y`. -/
def Allowed : Locks.Op → Rev → Option Rev → Prop
  | .clean, x, y => y = some x ∨ y = none
  | .rm, x, y => y = some x ∨ y = none ∨ x.server ≠ "" ∧ y = some { x with tags := ∅ }
  | .expire, x, y => y = none ∨ Retagged x y
  | .tags, x, y => y = none ∨ Retagged x y
  | .distrust, x, y => y = some x ∨ y = some { x with trust := .distrusted }
  | .verify, x, y => y = some x ∨ y = none ∨ y = some { x with trust := .verified } ∨ x.server ≠ "" ∧ y = some { x with tags := ∅ }
  | .backup, x, y => y = none ∨ Retrusted x y
  | _, x, y => y = some x

theorem blind_before (files : Dict String RevFile) :
    Blind (fun r => ∃ x t, onDisk files r.uuid = some x ∧ r = { x with tags := t }) := by
  rintro r t ⟨x, t', h1, h2⟩
  subst h2
  exact ⟨x, t, h1, rfl⟩

theorem all_scan {s : Repo} (hn : Named s.files) :
    All (fun r => ∃ x t, onDisk s.files r.uuid = some x ∧ r = { x with tags := t }) s.scan := by
  have hd : ∀ u r, onDisk s.files u = some r → ∃ x t, onDisk s.files r.uuid = some x ∧ r = { x with tags := t } := by
    intro u r hr
    refine ⟨r, r.tags, ?_, rfl⟩
    rw [onDisk_uuid hn hr]; exact hr
  exact ⟨fun r hr => hd r.uuid r ((Repo.scan_mem hn r).1 hr), hd, hn⟩

/-- Tags and expiry, in terms of `All`. -/
theorem all_before {files : Dict String RevFile} {s' : Repo}
    (h : All (fun r => ∃ x t, onDisk files r.uuid = some x ∧ r = { x with tags := t }) s') (u : String) :
    (onDisk files u = none → onDisk s'.files u = none) ∧
    ∀ x, onDisk files u = some x → onDisk s'.files u = none ∨ Retagged x (onDisk s'.files u) := by
  cases hy : onDisk s'.files u with
  | none => exact ⟨fun _ => rfl, fun _ _ => .inl rfl⟩
  | some y =>
    have hu := onDisk_uuid h.named hy
    obtain ⟨x, t, h1, h2⟩ := h.disk u y hy
    rw [hu] at h1
    refine ⟨(fun h0 => by rw [h1] at h0; cases h0), fun z hz => ?_⟩
    rw [h1] at hz
    cases hz
    exact .inr ⟨t, by rw [h2]⟩

theorem rm_fold {u : String} (l : List Rev) : ∀ (s : Repo),
    ((∀ r ∈ l, r.uuid ≠ u) → onDisk (l.foldl (fun s r => s.remove r) s).files u = onDisk s.files u) ∧
    ∀ x : Rev, x.uuid = u → (∀ r ∈ l, r.uuid = u → r = x) →
      (onDisk s.files u = some x ∨ onDisk s.files u = none ∨ x.server ≠ "" ∧ onDisk s.files u = some { x with tags := ∅ }) →
      (onDisk (l.foldl (fun s r => s.remove r) s).files u = some x ∨ onDisk (l.foldl (fun s r => s.remove r) s).files u = none ∨
        x.server ≠ "" ∧ onDisk (l.foldl (fun s r => s.remove r) s).files u = some { x with tags := ∅ }) := by
  induction l with
  | nil => intro s; exact ⟨fun _ => rfl, fun _ _ _ h => h⟩
  | cons r l ih =>
    intro s
    simp only [List.foldl_cons]
    refine ⟨fun h => ?_, fun x hxu hl h => ?_⟩
    · rw [(ih _).1 (fun y hy => h y (by simp [hy])), remove_files_ne (fun e => h r (by simp) e.symm)]
    · refine (ih _).2 x hxu (fun y hy => hl y (by simp [hy])) ?_
      by_cases hr : r.uuid = u
      · have hrx := hl r (by simp) hr
        subst hrx
        unfold Repo.remove
        split
        · rename_i hs
          rw [store_files, if_pos hr.symm]
          exact .inr (.inr ⟨hs.2, rfl⟩)
        · rw [drop_files, if_pos hr.symm]
          exact .inr (.inl rfl)
      · rw [remove_files_ne (fun e => hr e.symm)]
        exact h

theorem distrust_fold {u : String} (l : List Rev) : ∀ (s : Repo),
    ((∀ r ∈ l, r.uuid ≠ u) → onDisk (s.distrust l).2.files u = onDisk s.files u) ∧
    ∀ x : Rev, x.uuid = u → (∀ r ∈ l, r.uuid = u → r = x) →
      (onDisk s.files u = some x ∨ onDisk s.files u = some { x with trust := .distrusted }) →
      (onDisk (s.distrust l).2.files u = some x ∨ onDisk (s.distrust l).2.files u = some { x with trust := .distrusted }) := by
  induction l with
  | nil => intro s; exact ⟨fun _ => rfl, fun _ _ _ h => h⟩
  | cons r l ih =>
    intro s
    unfold Repo.distrust
    split
    · exact ⟨fun _ => rfl, fun _ _ _ h => h⟩
    · refine ⟨fun h => ?_, fun x hxu hl h => ?_⟩
      · rw [(ih _).1 (fun y hy => h y (by simp [hy])), store_files, if_neg (fun e => h r (by simp) e.symm)]
      · refine (ih _).2 x hxu (fun y hy => hl y (by simp [hy])) ?_
        rw [store_files]
        by_cases hr : r.uuid = u
        · have hrx := hl r (by simp) hr
          subst hrx
          rw [if_pos hr.symm]; exact .inr rfl
        · rw [if_neg (fun e => hr e.symm)]; exact h

theorem verifyMark_at {env : Env} {order : List Hash → List Hash} {s : Src} {r : Rev} :
    let y := onDisk (Src.verifyMark env order s r).2.repo.files r.uuid
    y = onDisk s.repo.files r.uuid ∨ y = none ∨ y = some { r with trust := .verified } ∨ r.server ≠ "" ∧ y = some { r with tags := ∅ } := by
  dsimp only
  unfold Src.verifyMark
  split
  · exact .inl rfl
  · split
    · dsimp only
      unfold Repo.remove
      split
      · rename_i hs
        rw [store_files, if_pos rfl]
        exact .inr (.inr (.inr ⟨hs.2, rfl⟩))
      · rw [drop_files, if_pos rfl]; exact .inr (.inl rfl)
    · split
      · exact .inl rfl
      · dsimp only
        rw [store_files, if_pos rfl]
        exact .inr (.inr (.inl rfl))

theorem verifyDistrusted_none {env : Env} {o : Rbd} {s : Src} (hn : Named s.repo.files) {u : String}
    (h : onDisk s.repo.files u = none) : onDisk (verifyDistrusted env o s).2.repo.files u = none := by
  unfold verifyDistrusted
  split
  · exact h
  · rename_i r hf
    obtain ⟨h1, _, _⟩ := mem_getHistory.1 (List.mem_reverse.1 (List.mem_of_find?_eq_some hf))
    have h3 := (Repo.scan_mem hn r).1 h1
    rw [verify_files (fun e => by rw [← e, h] at h3; cases h3)]
    exact h

/-- The end of a backup, for another record. -/
theorem conclude_at {env : Env} {o : Rbd} {s : Src} (hn : Named s.repo.files) {r : Rev} (hl : r.server = "") (v : Bool) {u : String}
    (hne : u ≠ r.uuid) :
    (onDisk s.repo.files u = none → onDisk (conclude env o r v s).2.repo.files u = none) ∧
    ∀ x, onDisk s.repo.files u = some x → onDisk (conclude env o r v s).2.repo.files u = none ∨
      Retrusted x (onDisk (conclude env o r v s).2.repo.files u) := by
  constructor
  · intro h
    unfold conclude
    generalize hs' : (if v then { s with repo := s.repo.store (finished o r) } else { s with repo := s.repo.remove r } : Src) = s'
    have hn' : Named s'.repo.files := by
      subst hs'
      cases v
      · show Named (s.repo.remove r).files; rw [remove_local hl]; exact hn.erase _
      · exact hn.set (finished o r)
    have hx' : onDisk s'.repo.files u = none := by
      subst hs'
      cases v
      · show onDisk (s.repo.remove r).files u = _; rw [remove_files_ne hne]; exact h
      · show onDisk (s.repo.store (finished o r)).files u = _
        rw [store_files, if_neg (show u ≠ (finished o r).uuid from hne)]; exact h
    have key := verifyDistrusted_none (env := env) (o := o) hn' hx'
    generalize verifyDistrusted env o s' = g at *
    obtain ⟨g1, g2⟩ := g
    cases g1 <;> exact key
  · intro x hx
    have hxu := onDisk_uuid hn hx
    subst hxu
    obtain ⟨repo, h⟩ := conclude_other (env := env) (o := o) hn hl v hx hne
    rcases h with h | ⟨_, ⟨t, h⟩ | ⟨h, _⟩⟩
    · exact .inr ⟨x.trust, h⟩
    · exact .inr ⟨t, h⟩
    · exact .inl h

/-- `backup`, for a record of which this execution has no old copy. -/
theorem backup_at {env : Env} {af : Bool} {o : Rbd} {r : Rev} {s : Sys} (hn : Named s.src.repo.files) (hl : r.server = "") {u : String}
    (hne : u ≠ r.uuid) (hm : ∀ y ∈ s.src.repo.history, y.uuid = u → onDisk s.src.repo.files u = some y) :
    (onDisk s.src.repo.files u = none → onDisk (backup env af o r s).2.src.repo.files u = none) ∧
    ∀ x, onDisk s.src.repo.files u = some x → onDisk (backup env af o r s).2.src.repo.files u = none ∨
      Retrusted x (onDisk (backup env af o r s).2.src.repo.files u) := by
  have hkeep : ∀ repo : Repo, repo.files = s.src.repo.files →
      (onDisk s.src.repo.files u = none → onDisk repo.files u = none) ∧
      ∀ x, onDisk s.src.repo.files u = some x → onDisk repo.files u = none ∨ Retrusted x (onDisk repo.files u) := by
    intro repo h
    rw [h]
    exact ⟨id, fun x hx => .inr ⟨x.trust, hx⟩⟩
  unfold backup
  split
  · exact hkeep _ rfl
  · split
    · exact hkeep _ rfl
    · dsimp only
      generalize exitWith (backupBody env af o r s.ceph.image (s.snapshot r)).1
        (deleteOldSnapshots o af s.src.repo (s.snapshot r).ceph.snaps).1 = res
      generalize (backupBody env af o r s.ceph.image (s.snapshot r)).2 = w
      unfold afterSnapshot
      split
      · exact conclude_at (s := { s.src with w := w }) hn hl _ hne
      · obtain ⟨d1, d2⟩ := distrust_fold (u := u) s.src.repo.localHistory s.src.repo
        have hn' := distrust_named s.src.repo.localHistory s.src.repo hn
        dsimp only
        generalize hg : s.src.repo.distrust s.src.repo.localHistory = g at d1 d2 hn'
        obtain ⟨g1, g2⟩ := g
        dsimp only at d1 d2 hn'
        have hd : (onDisk s.src.repo.files u = none → onDisk g2.files u = none) ∧
            ∀ x, onDisk s.src.repo.files u = some x → Retrusted x (onDisk g2.files u) := by
          constructor
          · intro h0
            rw [d1 ?_, h0]
            intro y hy hyu
            rw [hm y (mem_localHistory.1 hy).1 hyu] at h0
            cases h0
          · intro x hx
            rcases d2 x (onDisk_uuid hn hx) (fun y hy hyu => by
              have := hm y (mem_localHistory.1 hy).1 hyu
              rw [hx] at this; exact (Option.some.inj this).symm) (.inl hx) with h | h
            · exact ⟨x.trust, h⟩
            · exact ⟨_, h⟩
        cases g1 with
        | error e => exact ⟨hd.1, fun x hx => .inr (hd.2 x hx)⟩
        | ok _ =>
          dsimp only
          obtain ⟨c1, c2⟩ := conclude_at (env := env) (o := o) (s := ⟨g2, w⟩) (r := r) hn' hl false hne
          refine ⟨fun h0 => c1 (hd.1 h0), fun x hx => ?_⟩
          obtain ⟨t, ht⟩ := hd.2 x hx
          rcases c2 _ ht with h | ⟨t', h⟩
          · exact .inl h
          · exact .inr ⟨t', h⟩
      · exact hkeep _ rfl

/-- **C65** (partial: while the copy an execution has of the record is current) At whatever moment, in any state: an execution whose
copy of the record of `u` — if it has one — is what is on disk does not bring it back when it was removed, and does not undo what
somebody else changed: tags and expiry change the tags at most, distrusting, verifying and backing up the trust at most (the record
a backup works on itself is not complete), nothing else is changed.  Tags, expiry, cleaning and garbage collection
need no current copy, except that cleaning removes what was incomplete when it looked.
Missing: executions with an old copy of the record, `C65_false_verify_loses_tag`, `C65_false_verify_resurrects`. -/
theorem C65_current_copy_partial (env : Env) (p : Nat) (op : Locks.Op) (c c' : Shared) (hb : Body env p op c c')
    (hn : Named c.sys.src.repo.files) (u : String)
    (hm : op ∈ [.rm, .distrust, .verify, .backup] → ∀ r ∈ c.mem p, r.uuid = u → onDisk c.sys.src.repo.files u = some r) :
    (onDisk c.sys.src.repo.files u = none → onDisk c'.sys.src.repo.files u = none) ∧
    ∀ x, onDisk c.sys.src.repo.files u = some x → (op = .backup → x.clean = true) →
      Allowed op x (onDisk c'.sys.src.repo.files u) := by
  cases hb with
  | clean =>
    obtain h := clean_fold (c.view p).src.repo.localHistory (c.view p).src.repo (fun r hr => (mem_localHistory.1 hr).2) u
    change onDisk (c.repoStep p Repo.clean).sys.src.repo.files u = _ at h
    rw [h]
    split
    · exact ⟨fun _ => rfl, fun _ _ _ => .inr rfl⟩
    · exact ⟨fun h0 => h0, fun x hx _ => .inl hx⟩
  | rm _ revs h =>
    obtain ⟨h1, h2⟩ := rm_fold (u := u) revs (c.view p).src.repo
    refine ⟨fun h0 => ?_, fun x hx _ => ?_⟩
    · refine (h1 ?_).trans h0
      intro r hr hru
      rw [hm (by simp) r (h r hr) hru] at h0; cases h0
    · exact h2 x (onDisk_uuid hn hx) (fun r hr hru => by
        have := hm (by simp) r (h r hr) hru
        rw [hx] at this; exact (Option.some.inj this).symm) (.inl hx)
  | expire _ sch pd now =>
    obtain ⟨h1, h2⟩ := all_before (All.expire_blind (blind_before _) (s := (c.view p).src.repo) (all_scan hn) sch pd now) u
    exact ⟨h1, fun x hx _ => h2 x hx⟩
  | tags _ sch pd action spec tags expect auto force =>
    obtain ⟨h1, h2⟩ := all_before (All.tagsOp_blind (blind_before _) (s := (c.view p).src.repo) (all_scan hn) sch pd action spec tags
      expect auto force) u
    exact ⟨h1, fun x hx _ => h2 x hx⟩
  | distrust _ revs h =>
    obtain ⟨h1, h2⟩ := distrust_fold (u := u) revs (c.view p).src.repo
    refine ⟨fun h0 => ?_, fun x hx _ => ?_⟩
    · refine (h1 ?_).trans h0
      intro r hr hru
      rw [hm (by simp) r (h r hr) hru] at h0; cases h0
    · exact h2 x (onDisk_uuid hn hx) (fun r hr hru => by
        have := hm (by simp) r (h r hr) hru
        rw [hx] at this; exact (Option.some.inj this).symm) (.inl hx)
  | backup _ af o r h hl hc hf =>
    by_cases hne : u = r.uuid
    · have := hm (by simp) r h hne.symm
      refine ⟨(fun h0 => by rw [this] at h0; cases h0), fun x hx hx' => ?_⟩
      rw [this] at hx
      cases hx
      rw [hx' rfl] at hc; cases hc
    · obtain ⟨h1, h2⟩ := backup_at (env := env) (af := af) (o := o) (r := r) (s := c.view p) hn hl hne (hm (by simp))
      exact ⟨h1, fun x hx _ => h2 x hx⟩
  | verify _ order r h =>
    by_cases hne : u = r.uuid
    · have hr := hm (by simp) r h hne.symm
      refine ⟨(fun h0 => by rw [hr] at h0; cases h0), fun x hx _ => ?_⟩
      rw [hr] at hx
      cases hx
      have := verifyMark_at (env := env) (order := order) (s := (c.view p).src) (r := r)
      dsimp only at this
      subst hne
      rcases this with h1 | h1
      · exact .inl (h1.trans hr)
      · exact .inr h1
    · have := verifyMark_files (env := env) (order := order) (s := (c.view p).src) (r := r) hne
      exact ⟨fun h0 => this.trans h0, fun x hx _ => .inl (this.trans hx)⟩
  | gc =>
    have : (c.srcStep p (fun s => s.gc.2)).sys.src.repo = (c.view p).src.repo := gc_repo _
    rw [this]
    exact ⟨fun h0 => h0, fun x hx _ => hx⟩

/-- C65_current_copy_partial: the verification of a revision whose copy is current, and a change of tags by an execution that has read
nothing. -/
example := C65_current_copy_partial Test.env 1 .verify ex1 _ (.verify ex1 id exA (by decide +kernel))
  exStart_good.disk.named "a" (fun _ => by decide +kernel)
example := C65_current_copy_partial Test.env 2 .tags ex1 _ (.tags ex1 [] (fun _ => none) "add" "a" {"manual:keep"} none false false)
  exStart_good.disk.named "a" (fun h => by simp at h)

end Verif.Conc
