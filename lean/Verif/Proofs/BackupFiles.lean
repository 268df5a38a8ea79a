import Verif.Proofs.BackupOk
/-! # What a backup does to the metadata files -/
namespace Verif.Backup
open Verif Verif.Chunked Verif.Spec Verif.Rbd Verif.Repo Verif.Files Verif.Diff

theorem gc_repo (s : Src) : s.gc.2.repo = s.repo := by unfold Src.gc; split <;> rfl

theorem remove_local {s : Repo} {r : Rev} (h : r.server = "") : s.remove r = s.drop r := by simp [Repo.remove, h]

theorem remove_files_ne {s : Repo} {r : Rev} {u : String} (h : u ≠ r.uuid) (force : Bool) :
    onDisk (s.remove r force).files u = onDisk s.files u := by
  unfold Repo.remove
  split
  · show onDisk (s.files.set r.uuid ⟨false, { r with tags := ∅ }⟩) u = _
    rw [onDisk_set (r := { r with tags := ∅ }), if_neg h]
  · show onDisk (s.files.erase r.uuid) u = _
    rw [onDisk_erase, if_neg h]

theorem store_files (s : Repo) (r : Rev) (u : String) :
    onDisk (s.store r).files u = if u = r.uuid then some r else onDisk s.files u := by
  show onDisk (s.files.set r.uuid ⟨false, r⟩) u = _
  rw [onDisk_set]

theorem drop_files (s : Repo) (r : Rev) (u : String) :
    onDisk (s.drop r).files u = if u = r.uuid then none else onDisk s.files u := by
  show onDisk (s.files.erase r.uuid) u = _
  rw [onDisk_erase]

theorem verifyMark_files {env : Env} {order : List Hash → List Hash} {s : Src} {r : Rev} {u : String} (h : u ≠ r.uuid) :
    onDisk (Src.verifyMark env order s r).2.repo.files u = onDisk s.repo.files u := by
  unfold Src.verifyMark
  split
  · rfl
  · split
    · exact remove_files_ne h false
    · split
      · rfl
      · dsimp only
        rw [store_files, if_neg h]

theorem verify_files {env : Env} {order : List Hash → List Hash} {s : Src} {r : Rev} {u : String} (h : u ≠ r.uuid) :
    onDisk (Src.verify env order s r).2.repo.files u = onDisk s.repo.files u := by
  have hm := verifyMark_files (env := env) (order := order) (s := s) h
  unfold Src.verify
  split
  · rename_i heq; rw [heq] at hm; exact hm
  · rename_i heq; rw [heq] at hm; rw [gc_repo]; exact hm

/-- The verification at the end of a backup concerns only a distrusted revision. -/
theorem verifyDistrusted_files {env : Env} {o : Rbd} {s : Src} (hn : Named s.repo.files) {u : String}
    (h : ∀ x, onDisk s.repo.files u = some x → x.trust ≠ .distrusted) :
    onDisk (verifyDistrusted env o s).2.repo.files u = onDisk s.repo.files u := by
  unfold verifyDistrusted
  cases hf : (s.repo.scan.getHistory true true).reverse.find? (fun r => decide (r.trust = .distrusted)) with
  | none => rfl
  | some r =>
    obtain ⟨h1, _, _⟩ := mem_getHistory.1 (List.mem_reverse.1 (List.mem_of_find?_eq_some hf))
    have h2 : r.trust = .distrusted := by simpa using List.find?_some hf
    have h3 := (Repo.scan_mem hn r).1 h1
    have hne : u ≠ r.uuid := by
      intro he; subst he; exact h r h3 h2
    exact verify_files hne

theorem conclude_files {env : Env} {o : Rbd} {s : Src} (hn : Named s.repo.files) {r : Rev} (hl : r.server = "")
    (ht : r.trust ≠ .distrusted) (v : Bool) :
    onDisk (conclude env o r v s).2.repo.files r.uuid = if v then some (finished o r) else none := by
  unfold conclude
  have hd := verifyDistrusted_files (env := env) (o := o) (s := if v then { s with repo := s.repo.store (finished o r) } else
      { s with repo := s.repo.remove r }) (u := r.uuid)
    (by cases v
        · show Named (s.repo.remove r).files; rw [remove_local hl]; exact hn.erase _
        · exact hn.set (finished o r))
    (by cases v
        · show ∀ x, onDisk (s.repo.remove r).files r.uuid = some x → _
          rw [remove_local hl, drop_files, if_pos rfl]; intro x hx; cases hx
        · show ∀ x, onDisk (s.repo.store (finished o r)).files r.uuid = some x → _
          rw [store_files, if_pos (show r.uuid = (finished o r).uuid from rfl)]
          intro x hx; cases hx; exact ht)
  have he : onDisk (if v then { s with repo := s.repo.store (finished o r) } else
      { s with repo := s.repo.remove r } : Src).repo.files r.uuid = if v then some (finished o r) else none := by
    cases v
    · show onDisk (s.repo.remove r).files r.uuid = none
      rw [remove_local hl, drop_files, if_pos rfl]
    · show onDisk (s.repo.store (finished o r)).files r.uuid = some (finished o r)
      rw [store_files, if_pos (show r.uuid = (finished o r).uuid from rfl)]
  rw [he] at hd
  generalize verifyDistrusted env o (if v then { s with repo := s.repo.store (finished o r) } else
      { s with repo := s.repo.remove r } : Src) = g at *
  obtain ⟨g1, g2⟩ := g
  cases g1 <;> exact hd

theorem distrust_local (l : List Rev) : ∀ (s : Repo), (∀ r ∈ l, r.server = "") → ∃ s', s.distrust l = (.ok (), s') := by
  induction l with
  | nil => intro s _; exact ⟨s, rfl⟩
  | cons r l ih =>
    intro s h
    unfold Repo.distrust
    rw [if_neg (by simp [h r (by simp)])]
    exact ih _ (fun x hx => h x (by simp [hx]))

theorem mem_localHistory {s : Repo} {r : Rev} : r ∈ s.localHistory ↔ r ∈ s.history ∧ r.server = "" := by
  simp [Repo.localHistory, Repo.getHistory, Rev.isLocal]

theorem distrust_named (l : List Rev) : ∀ (s : Repo), Named s.files → Named (s.distrust l).2.files := by
  induction l with
  | nil => intro s h; exact h
  | cons r l ih =>
    intro s h
    unfold Repo.distrust
    split
    · exact h
    · exact ih _ (h.set { r with trust := .distrusted })

theorem distrust_files (l : List Rev) : ∀ (s : Repo), (∀ r ∈ l, r.server = "") → (l.map Rev.uuid).Nodup → ∀ u,
    onDisk (s.distrust l).2.files u =
      match l.find? (fun r => decide (r.uuid = u)) with
      | some r => some { r with trust := .distrusted }
      | none => onDisk s.files u := by
  induction l with
  | nil => intro s _ _ u; rfl
  | cons r l ih =>
    intro s h hn u
    unfold Repo.distrust
    rw [if_neg (by simp [h r (by simp)]), ih _ (fun x hx => h x (by simp [hx])) (by simp at hn; exact hn.2)]
    rw [List.find?_cons]
    by_cases hu : r.uuid = u
    · have : l.find? (fun r => decide (r.uuid = u)) = none := by
        rw [List.find?_eq_none]
        intro x hx
        simp only [decide_eq_true_eq]
        intro hxu
        simp only [List.map_cons, List.nodup_cons] at hn
        exact hn.1 (by rw [hu, ← hxu]; exact List.mem_map_of_mem hx)
      rw [this]
      simp only [hu, decide_true]
      rw [store_files]
      exact if_pos rfl
    · simp only [hu, decide_false]
      cases l.find? (fun r => decide (r.uuid = u)) with
      | some x => rfl
      | none => dsimp only; rw [store_files, if_neg (fun h => hu h.symm)]

/-- The result of `afterSnapshot` for the new revision, whatever the state of the rest. -/
theorem afterSnapshot_files {env : Env} {o : Rbd} {s : Src} (hn : Named s.repo.files) {r : Rev} (hl : r.server = "")
    (ht : r.trust ≠ .distrusted) (hr : onDisk s.repo.files r.uuid = some r) (hinc : r.clean = false) (res : Except PyErr Bool) :
    (∃ x, onDisk (afterSnapshot env o r res s).2.repo.files r.uuid = some x ∧ x.clean = true) ↔ res = .ok true := by
  have hfin : (finished o r).clean = true := by simp [finished, Rev.clean, Dict.has]
  have hconc : ∀ (s : Src), Named s.repo.files → ∀ v,
      (∃ x, onDisk (conclude env o r v s).2.repo.files r.uuid = some x ∧ x.clean = true) ↔ v = true := by
    intro s hn v
    rw [conclude_files hn hl ht v]
    cases v
    · simp
    · simp [hfin]
  unfold afterSnapshot
  split
  · rw [hconc _ hn]; simp
  · obtain ⟨s', hs'⟩ := distrust_local s.repo.localHistory s.repo (fun x hx => (mem_localHistory.1 hx).2)
    have hn' := distrust_named s.repo.localHistory s.repo hn
    rw [hs'] at hn' ⊢
    dsimp only
    rw [hconc _ hn']; simp
  · rename_i e _ _
    dsimp only
    rw [hr]
    simp [hinc]

end Verif.Backup
