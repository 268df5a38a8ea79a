import Verif.Proofs.Expire
import Verif.Proofs.RepoScan
import Verif.Model.Tags
import Verif.Props.RevExpr
/-! # Properties of all revisions that depend on identity and completeness only -/
set_option linter.dupNamespace false
namespace Verif.Repo
open Verif

/-- `P` does not depend on tags and trust. -/
def Core (P : Rev → Prop) : Prop :=
  ∀ r r' : Rev, P r → r'.uuid = r.uuid → r'.server = r.server → r'.stats = r.stats → r'.ts = r.ts → P r'

/-- All revisions in memory and on disk satisfy `P`; memory and disk agree. -/
structure All (P : Rev → Prop) (s : Repo) : Prop where
  hist : ∀ r ∈ s.history, P r
  disk : ∀ u r, onDisk s.files u = some r → P r
  named : Named s.files

/-- The history in memory is what is on disk. -/
structure Sync (s : Repo) : Prop where
  named : Named s.files
  nodup : (s.history.map Rev.uuid).Nodup
  mem : ∀ r, r ∈ s.history ↔ onDisk s.files r.uuid = some r

theorem Sync.scan {s : Repo} (h : Named s.files) : Sync s.scan :=
  ⟨h, s.scan_nodup, fun r => Repo.scan_mem h r⟩

theorem assign_uuids (s : Repo) (r : Rev) : (s.assign r).history.map Rev.uuid = s.history.map Rev.uuid := by
  simp only [Repo.assign, List.map_map]
  apply List.map_congr_left
  intro x _
  simp only [Function.comp]
  split
  · rename_i h; exact h.symm
  · rfl

theorem mem_assign {s : Repo} {r x : Rev} : x ∈ (s.assign r).history →
    x = r ∨ (x ∈ s.history ∧ x.uuid ≠ r.uuid) := by
  intro h
  simp only [Repo.assign, List.mem_map] at h
  obtain ⟨y, hy, hx⟩ := h
  split at hx
  · exact .inl hx.symm
  · rename_i hne; subst hx; exact .inr ⟨hy, hne⟩

theorem Sync.store {s : Repo} (h : Sync s) {r0 r : Rev} (hr : r0 ∈ s.history) (hu : r.uuid = r0.uuid) :
    Sync (s.store r) := by
  refine ⟨h.named.set r, ?_, ?_⟩
  · show ((s.assign r).history.map Rev.uuid).Nodup
    rw [assign_uuids]; exact h.nodup
  · intro x
    show x ∈ (s.assign r).history ↔ onDisk (s.files.set r.uuid ⟨false, r⟩) x.uuid = some x
    rw [onDisk_set]
    constructor
    · intro hx
      rcases mem_assign hx with rfl | ⟨hx, hne⟩
      · rw [if_pos rfl]
      · rw [if_neg hne]; exact (h.mem x).1 hx
    · intro hx
      split at hx
      · rename_i heq
        cases hx
        simp only [Repo.assign, List.mem_map]
        exact ⟨r0, hr, by rw [if_pos hu.symm]⟩
      · rename_i hne
        simp only [Repo.assign, List.mem_map]
        exact ⟨x, (h.mem x).2 hx, by rw [if_neg hne]⟩

theorem Sync.drop {s : Repo} (h : Sync s) (r : Rev) : Sync (s.drop r) := by
  refine ⟨h.named.erase _, ?_, ?_⟩
  · exact (h.nodup).sublist (List.Sublist.map _ List.filter_sublist)
  · intro x
    show x ∈ s.history.filter _ ↔ onDisk (s.files.erase r.uuid) x.uuid = some x
    rw [onDisk_erase, List.mem_filter, h.mem]
    by_cases hx : x.uuid = r.uuid
    · simp [hx]
    · simp [hx]

theorem Sync.remove {s : Repo} (h : Sync s) {r : Rev} (hr : ∃ r0 ∈ s.history, r.uuid = r0.uuid) (force : Bool) :
    Sync (s.remove r force) := by
  unfold Repo.remove
  split
  · obtain ⟨r0, h0, h1⟩ := hr
    exact h.store h0 h1
  · exact h.drop r

theorem All.store {P : Rev → Prop} {s : Repo} (h : All P s) {r : Rev} (hr : P r) : All P (s.store r) := by
  refine ⟨?_, ?_, h.named.set r⟩
  · intro x hx
    rcases mem_assign (s := s) hx with rfl | ⟨hx, _⟩
    · exact hr
    · exact h.hist x hx
  · intro u x hx
    have hx' : onDisk (s.files.set r.uuid ⟨false, r⟩) u = some x := hx
    rw [onDisk_set] at hx'
    split at hx'
    · cases hx'; exact hr
    · exact h.disk u x hx'

theorem All.assign {P : Rev → Prop} {s : Repo} (h : All P s) {r : Rev} (hr : P r) : All P (s.assign r) := by
  refine ⟨?_, h.disk, h.named⟩
  intro x hx
  rcases mem_assign hx with rfl | ⟨hx, _⟩
  · exact hr
  · exact h.hist x hx

theorem All.writeInfo {P : Rev → Prop} {s : Repo} (h : All P s) {r : Rev} (hr : P r) : All P (s.writeInfo r) := by
  refine ⟨h.hist, ?_, h.named.set r⟩
  intro u x hx
  have hx' : onDisk (s.files.set r.uuid ⟨false, r⟩) u = some x := hx
  rw [onDisk_set] at hx'
  split at hx'
  · cases hx'; exact hr
  · exact h.disk u x hx'

theorem All.drop {P : Rev → Prop} {s : Repo} (h : All P s) (r : Rev) : All P (s.drop r) := by
  refine ⟨fun x hx => h.hist x (List.mem_of_mem_filter hx), ?_, h.named.erase _⟩
  intro u x hx
  have hx' : onDisk (s.files.erase r.uuid) u = some x := hx
  rw [onDisk_erase] at hx'
  split at hx'
  · cases hx'
  · exact h.disk u x hx'

theorem All.remove {P : Rev → Prop} (hP : Core P) {s : Repo} (h : All P s) {r : Rev} (hr : P r) (force : Bool) :
    All P (s.remove r force) := by
  unfold Repo.remove
  split
  · exact h.store (hP r _ hr rfl rfl rfl rfl)
  · exact h.drop r

theorem All.scan {P : Rev → Prop} {s : Repo} (h : All P s) : All P s.scan := by
  refine ⟨?_, h.disk, h.named⟩
  intro r hr
  exact h.disk _ r ((Repo.scan_mem h.named r).1 hr)

theorem All.mono {P Q : Rev → Prop} {s : Repo} (h : All P s) (hPQ : ∀ r, P r → Q r) : All Q s :=
  ⟨fun r hr => hPQ r (h.hist r hr), fun u r hr => hPQ r (h.disk u r hr), h.named⟩

/-- A fold of changes to revisions from a list that satisfies `P`. -/
theorem All.foldl {P : Rev → Prop} (g : Repo → Rev → Repo)
    (hg : ∀ s r, All P s → P r → All P (g s r)) (l : List Rev) : ∀ {s : Repo}, All P s → (∀ r ∈ l, P r) →
      All P (l.foldl g s) := by
  induction l with
  | nil => intro s h _; exact h
  | cons r l ih =>
    intro s h hl
    exact ih (hg s r h (hl r (by simp))) (fun x hx => hl x (by simp [hx]))

theorem All.rm {P : Rev → Prop} (hP : Core P) {s : Repo} (h : All P s) (l : List Rev) (hl : ∀ r ∈ l, P r) :
    All P (s.rm l) :=
  All.foldl _ (fun _ _ hs hr => hs.remove hP hr false) l h hl

theorem All.clean {P : Rev → Prop} (hP : Core P) {s : Repo} (h : All P s) : All P s.clean :=
  All.foldl _ (fun s r hs hr => by
    split
    · exact hs
    · exact hs.remove hP hr false) _ h (fun r hr => h.hist r (List.mem_of_mem_filter hr))

theorem All.distrust {P : Rev → Prop} (hP : Core P) (l : List Rev) : ∀ {s : Repo}, All P s → (∀ r ∈ l, P r) →
    All P (s.distrust l).2 := by
  induction l with
  | nil => intro s h _; exact h
  | cons r l ih =>
    intro s h hl
    unfold Repo.distrust
    split
    · exact h
    · exact ih (h.store (hP r _ (hl r (by simp)) rfl rfl rfl rfl)) (fun x hx => hl x (by simp [hx]))

theorem All.tagsLoop {P : Rev → Prop} (hP : Core P) (action : String) (tags : Finset String) (auto : Bool) (l : List Rev) :
    ∀ {s : Repo}, All P s → (∀ r ∈ l, P r) → All P (tagsLoop action tags auto l s).2 := by
  induction l with
  | nil => intro s h _; exact h
  | cons r l ih =>
    intro s h hl
    have hr := hl r (by simp)
    simp only [Repo.tagsLoop]
    split
    · exact h
    · rename_i t _
      have hr' : P { r with tags := t } := hP r _ hr rfl rfl rfl rfl
      split
      · exact ih ((h.assign hr').remove hP hr' false) (fun x hx => hl x (by simp [hx]))
      · exact ih (h.store hr') (fun x hx => hl x (by simp [hx]))

theorem All.tagsOp {P : Rev → Prop} (hP : Core P) {s : Repo} (h : All P s) (sch : Schedule) (pd : String → Option Int)
    (action spec : String) (tags : Finset String) (expect : Option (Finset String)) (auto force : Bool) :
    All P (s.tagsOp sch pd action spec tags expect auto force).2 := by
  unfold Repo.tagsOp
  dsimp only
  cases hf : findRevisions ⟨s.scan.history, pd⟩ spec with
  | error e => exact h.scan
  | ok revs =>
    dsimp only
    split
    · exact h.scan
    · generalize (revs.any fun r => match expect with
        | none => false
        | some t => decide (t ≠ r.tags)) = b
      cases b
      · exact All.tagsLoop hP _ _ _ _ h.scan (fun r hr => h.scan.hist r
          ((C37_results_from_history _ (nodup_of_map_uuid s.scan_nodup) spec revs hf).1 r hr))
      · exact h.scan

/-- The inner loop of phase 1 leaves the revisions where they are. -/
theorem expireRevs_uuids (tag : String) (thr : Int) : ∀ (l : List Rev) (s : Repo),
    (Repo.expireRevs tag thr l s).2.history.map Rev.uuid = s.history.map Rev.uuid
  | [], _ => rfl
  | r :: l, s => by
    simp only [Repo.expireRevs]
    split
    · exact expireRevs_uuids tag thr l s
    · split
      · rfl
      · rw [expireRevs_uuids tag thr l]; exact assign_uuids s _

theorem All.expireRevs {P : Rev → Prop} (hP : ∀ (r : Rev) (t : Finset String), P r → P { r with tags := t }) (tag : String) (thr : Int) :
    ∀ (l : List Rev) {s : Repo}, All P s → (∀ r ∈ l, P r) → All P (Repo.expireRevs tag thr l s).2
  | [], _, h, _ => h
  | r :: l, s, h, hl => by
    simp only [Repo.expireRevs]
    split
    · exact h.expireRevs hP tag thr l (fun r hr => hl r (by simp [hr]))
    · split
      · exact h
      · exact All.expireRevs hP tag thr l (h.store (hP r _ (hl r (by simp)))) (fun r hr => hl r (by simp [hr]))

theorem All.expirePhase1 {P : Rev → Prop} (hP : Core P) (pd : String → Option Int) (now : String → Int)
    (l : List (String × TagSpec)) : ∀ {s : Repo}, All P s → (s.history.map Rev.uuid).Nodup →
      All P (expirePhase1 pd now l s).2 := by
  induction l with
  | nil => intro s h _; exact h
  | cons x l ih =>
    intro s h hn
    obtain ⟨tag, a⟩ := x
    simp only [Repo.expirePhase1, expireTag]
    cases hf : findRevisions ⟨s.history, pd⟩ ("tag:" ++ tag) with
    | error e => exact h
    | ok revs =>
      dsimp only
      have hmem := (C37_results_from_history _ (nodup_of_map_uuid hn) _ revs hf).1
      have hs' : All P (if revs.length < a.keep then ((.ok (), s) : Except PyErr Unit × Repo)
          else Repo.expireRevs tag (now tag - a.keep * a.interval) (dropNewest a.keep revs) s).2 ∧
          ((if revs.length < a.keep then ((.ok (), s) : Except PyErr Unit × Repo)
          else Repo.expireRevs tag (now tag - a.keep * a.interval) (dropNewest a.keep revs) s).2.history.map Rev.uuid).Nodup := by
        split
        · exact ⟨h, hn⟩
        · have hsub : ∀ r ∈ dropNewest a.keep revs, P r := by
            intro r hr
            refine h.hist r (hmem r ?_)
            unfold dropNewest at hr
            split at hr
            · simp at hr
            · exact List.mem_of_mem_take hr
          refine ⟨h.expireRevs (fun r t hr => hP r _ hr rfl rfl rfl rfl) tag _ _ hsub, ?_⟩
          rw [expireRevs_uuids]; exact hn
      split
      · rename_i heq; rw [heq] at hs'; exact hs'.1
      · rename_i s' heq
        rw [heq] at hs'
        exact ih hs'.1 hs'.2

theorem All.expire {P : Rev → Prop} (hP : Core P) {s : Repo} (h : All P s) (sch : Schedule)
    (pd : String → Option Int) (now : String → Int) : All P (sch.expire pd now s).2 := by
  have h1 := All.expirePhase1 hP pd now sch h.scan s.scan_nodup
  unfold Schedule.expire
  split
  · rename_i heq; rw [heq] at h1; exact h1
  · rename_i s' heq
    rw [heq] at h1
    dsimp only
    have h2 : All P (expirePhase2 sch s') := by
      unfold expirePhase2
      refine All.foldl _ (fun s r hs hr => ?_) _ h1 h1.hist
      split
      · exact hs.store (hP r _ hr rfl rfl rfl rfl)
      · exact hs
    unfold expirePhase3
    exact All.foldl _ (fun s r hs hr => hs.remove hP hr false) _ h2
      (fun r hr => h2.hist r (List.mem_of_mem_filter hr))

/-- `clean` leaves no incomplete local revision if the history is in sync. -/
theorem clean_complete {s : Repo} (h : Sync s) : Sync s.clean ∧
    ∀ r, r ∈ s.clean.history ↔ r ∈ s.history ∧ (r.isLocal = true → r.clean = true) := by
  have key : ∀ (l : List Rev) (s : Repo), Sync s → (∀ r ∈ l, r.server = "") →
      Sync (l.foldl (fun s r => if r.clean then s else s.remove r) s) ∧
      ∀ r, r ∈ (l.foldl (fun s r => if r.clean then s else s.remove r) s).history ↔
        r ∈ s.history ∧ (∀ x ∈ l, x.clean = false → x.uuid ≠ r.uuid) := by
    intro l
    induction l with
    | nil => intro s hs _; exact ⟨hs, by simp⟩
    | cons x l ih =>
      intro s hs hl
      simp only [List.foldl_cons]
      have hxs := hl x (by simp)
      by_cases hx : x.clean = true
      · rw [if_pos hx]
        obtain ⟨i1, i2⟩ := ih s hs (fun y hy => hl y (by simp [hy]))
        refine ⟨i1, fun r => ?_⟩
        rw [i2]
        simp [hx]
      · rw [if_neg hx]
        have hrem : s.remove x = s.drop x := by simp [Repo.remove, hxs]
        rw [hrem]
        obtain ⟨i1, i2⟩ := ih (s.drop x) (hs.drop x) (fun y hy => hl y (by simp [hy]))
        refine ⟨i1, fun r => ?_⟩
        rw [i2]
        have hx' : x.clean = false := by simpa using hx
        simp only [Repo.drop, List.mem_filter, decide_eq_true_eq, List.mem_cons, forall_eq_or_imp, hx', forall_const]
        constructor
        · rintro ⟨⟨a, b⟩, c⟩; exact ⟨a, fun e => b e.symm, c⟩
        · rintro ⟨a, b, c⟩; exact ⟨⟨a, fun e => b e.symm⟩, c⟩
  obtain ⟨k1, k2⟩ := key s.localHistory s h (by
    intro r hr
    simp only [Repo.localHistory, Repo.getHistory, List.mem_filter] at hr
    simpa [Rev.isLocal] using hr.2)
  refine ⟨k1, fun r => ?_⟩
  unfold Repo.clean
  rw [k2]
  constructor
  · rintro ⟨h1, h2⟩
    refine ⟨h1, fun hl => ?_⟩
    by_contra hc
    have hc' : r.clean = false := by simpa using hc
    exact h2 r (by simp [Repo.localHistory, Repo.getHistory, h1, hl]) hc' rfl
  · rintro ⟨h1, h2⟩
    refine ⟨h1, ?_⟩
    intro x hx hxc hxu
    have hxh : x ∈ s.history := List.mem_of_mem_filter hx
    have : x = r := eq_of_uuid h.nodup hxh h1 hxu
    subst this
    have hxl : x.isLocal = true := by
      simp only [Repo.localHistory, Repo.getHistory, List.mem_filter] at hx
      simpa using hx.2
    rw [h2 hxl] at hxc
    cases hxc

end Verif.Repo
