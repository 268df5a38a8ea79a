import Verif.Proofs.RepoAll
/-! # Properties of all revisions that do not depend on tags -/
set_option linter.dupNamespace false
namespace Verif.Repo
open Verif

/-- `P` does not depend on tags. -/
def Blind (P : Rev → Prop) : Prop := ∀ (r : Rev) (t : Finset String), P r → P { r with tags := t }

theorem All.remove_blind {P : Rev → Prop} (hP : Blind P) {s : Repo} (h : All P s) {r : Rev} (hr : P r) (force : Bool) :
    All P (s.remove r force) := by
  unfold Repo.remove
  split
  · exact h.store (hP r _ hr)
  · exact h.drop r

theorem All.tagsLoop_blind {P : Rev → Prop} (hP : Blind P) (action : String) (tags : Finset String) (auto : Bool) (l : List Rev) :
    ∀ {s : Repo}, All P s → (∀ r ∈ l, P r) → All P (Repo.tagsLoop action tags auto l s).2 := by
  induction l with
  | nil => intro s h _; exact h
  | cons r l ih =>
    intro s h hl
    have hr := hl r (by simp)
    simp only [Repo.tagsLoop]
    split
    · exact h
    · rename_i t _
      have hr' : P { r with tags := t } := hP r _ hr
      split
      · exact ih ((h.assign hr').remove_blind hP hr' false) (fun x hx => hl x (by simp [hx]))
      · exact ih (h.store hr') (fun x hx => hl x (by simp [hx]))

theorem All.tagsOp_blind {P : Rev → Prop} (hP : Blind P) {s : Repo} (h : All P s.scan) (sch : Schedule) (pd : String → Option Int)
    (action spec : String) (tags : Finset String) (expect : Option (Finset String)) (auto force : Bool) :
    All P (s.tagsOp sch pd action spec tags expect auto force).2 := by
  unfold Repo.tagsOp
  dsimp only
  cases hf : findRevisions ⟨s.scan.history, pd⟩ spec with
  | error e => exact h
  | ok revs =>
    dsimp only
    split
    · exact h
    · generalize (revs.any fun r => match expect with
        | none => false
        | some t => decide (t ≠ r.tags)) = b
      cases b
      · exact All.tagsLoop_blind hP _ _ _ _ h (fun r hr => h.hist r
          ((C37_results_from_history _ (nodup_of_map_uuid s.scan_nodup) spec revs hf).1 r hr))
      · exact h

theorem All.expirePhase1_blind {P : Rev → Prop} (hP : Blind P) (pd : String → Option Int) (now : String → Int)
    (l : List (String × TagSpec)) : ∀ {s : Repo}, All P s → (s.history.map Rev.uuid).Nodup →
      All P (Repo.expirePhase1 pd now l s).2 := by
  induction l with
  | nil => intro s h _; exact h
  | cons x l ih =>
    intro s h hn
    obtain ⟨tag, a⟩ := x
    simp only [Repo.expirePhase1, expireTag]
    cases hf : findRevisions ⟨s.history, pd⟩ ("tag:" ++ tag) with
    | error e => exact h
    | ok revs =>
      dsimp only
      have hmem := (C37_results_from_history _ (nodup_of_map_uuid hn) _ revs hf).1
      have hs' : All P (if revs.length < a.keep then ((.ok (), s) : Except PyErr Unit × Repo)
          else Repo.expireRevs tag (now tag - a.keep * a.interval) (dropNewest a.keep revs) s).2 ∧
          ((if revs.length < a.keep then ((.ok (), s) : Except PyErr Unit × Repo)
          else Repo.expireRevs tag (now tag - a.keep * a.interval) (dropNewest a.keep revs) s).2.history.map Rev.uuid).Nodup := by
        split
        · exact ⟨h, hn⟩
        · have hsub : ∀ r ∈ dropNewest a.keep revs, P r := by
            intro r hr
            refine h.hist r (hmem r ?_)
            unfold dropNewest at hr
            split at hr
            · simp at hr
            · exact List.mem_of_mem_take hr
          refine ⟨h.expireRevs (fun r t hr => hP r _ hr) tag _ _ hsub, ?_⟩
          rw [expireRevs_uuids]; exact hn
      split
      · rename_i heq; rw [heq] at hs'; exact hs'.1
      · rename_i s' heq
        rw [heq] at hs'
        exact ih hs'.1 hs'.2

theorem All.expire_blind {P : Rev → Prop} (hP : Blind P) {s : Repo} (h : All P s.scan) (sch : Schedule)
    (pd : String → Option Int) (now : String → Int) : All P (sch.expire pd now s).2 := by
  have h1 := All.expirePhase1_blind hP pd now sch h s.scan_nodup
  unfold Schedule.expire
  split
  · rename_i heq; rw [heq] at h1; exact h1
  · rename_i s' heq
    rw [heq] at h1
    dsimp only
    have h2 : All P (expirePhase2 sch s') := by
      unfold expirePhase2
      refine All.foldl _ (fun s r hs hr => ?_) _ h1 h1.hist
      split
      · exact hs.store (hP r _ hr)
      · exact hs
    unfold expirePhase3
    exact All.foldl _ (fun s r hs hr => hs.remove_blind hP hr false) _ h2
      (fun r hr => h2.hist r (List.mem_of_mem_filter hr))

end Verif.Repo
