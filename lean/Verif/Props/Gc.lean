import Verif.Proofs.Gc
import Verif.Props.Chunked
/-!
# Properties C07 and C08: garbage collection

`s` is the state of a process that has scanned its repository; `s.repo.localHistory` are the
revisions it lists as local.
-/
namespace Verif.Rbd
open Verif Verif.Chunked Verif.Repo Verif.Spec

/-- A chunk is referenced if the stored mapping of some local revision names it. -/
def Referenced (s : Src) (h : Hash) : Prop :=
  ∃ r ∈ s.repo.localHistory, ∃ m, s.w.metas.get? r.uuid = some (some m) ∧ h ∈ m.mapping.values

/-- **C07** Garbage collection keeps the content of every local revision, chunk file by chunk file, and
touches neither mapping files nor revision metadata.  In particular a revision that could be read
before is read with the same content by every later process, with any sequence of operations. -/
theorem C07_gc_keeps_local (env : Env) (s : Src) (hw : WOK env s.w)
    (r : Rev) (hr : r ∈ s.repo.localHistory) :
    s.gc.2.repo = s.repo ∧ s.gc.2.w.metas = s.w.metas ∧
    (∀ m, s.w.metas.get? r.uuid = some (some m) → ∀ id h, m.mapping.get? id = some h →
      s.gc.2.w.chunks.get? h = s.w.chunks.get? h) ∧
    (∀ c, OnDisk env s.w r.uuid c → OnDisk env s.gc.2.w r.uuid c ∧
      ∀ mode, ∃ f, File.open s.gc.2.w.fresh r.uuid mode = .ok f ∧
        ∀ ops, CollFree env.H (f.run env ops).w.log → f.trace env ops = (flatOpen mode c).trace ops) := by
  unfold Src.gc
  cases hu : usedChunks s.w s.repo.localHistory [] with
  | error e =>
    refine ⟨rfl, rfl, fun _ _ _ _ _ => rfl, fun c hc => ⟨hc, fun mode => ?_⟩⟩
    have hwok : WOK env s.w.fresh := ⟨hw.good, by intro x hx; simp [World.fresh] at hx⟩
    obtain ⟨f, f1, f2, f3, f4⟩ := open_ok hwok (show OnDisk env s.w.fresh r.uuid _ from hc) mode
    exact ⟨f, f1, fun ops' hc' => (run_ok hc' ops' f4 (fun _ hx => hx)).2.1⟩
  | ok used =>
    dsimp only
    obtain ⟨_, h2⟩ := usedChunks_ok hu
    have hin : ∀ m, s.w.metas.get? r.uuid = some (some m) → ∀ h ∈ m.mapping.values,
        h ∈ used := fun m hm h hh =>
      (h2 h).2 (.inr ⟨r, hr, m, hm, hh⟩)
    refine ⟨rfl, purge_metas _ _, ?_, fun c hc => ?_⟩
    · intro m hm id h hh
      rw [purge_chunks, if_pos (hin m hm h (mem_values_of_get? hh))]
    · have hd := hc.purge used hin
      refine ⟨hd, fun mode => ?_⟩
      have hwok : WOK env (s.w.purge used).fresh :=
        ⟨(purge_ok hw used).good, by intro x hx; simp [World.fresh] at hx⟩
      obtain ⟨f, f1, f2, f3, f4⟩ := open_ok hwok
        (show OnDisk env (s.w.purge used).fresh r.uuid _ from hd) mode
      exact ⟨f, f1, fun ops' hc' => (run_ok hc' ops' f4 (fun _ hx => hx)).2.1⟩

/-- **C07/C08** Garbage collection succeeds exactly if every local revision has a readable mapping
file; otherwise it deletes nothing. -/
theorem C08_gc_succeeds_iff (s : Src) :
    (s.gc.1 = .ok () ↔ ∀ r ∈ s.repo.localHistory, ∃ m, s.w.metas.get? r.uuid = some (some m)) ∧
    (s.gc.1 ≠ .ok () → s.gc.2 = s) := by
  unfold Src.gc
  cases hu : usedChunks s.w s.repo.localHistory [] with
  | error e =>
    refine ⟨⟨fun h => by simp at h, fun h => ?_⟩, fun _ => rfl⟩
    obtain ⟨u, hu'⟩ := usedChunks_total h []
    rw [hu] at hu'; cases hu'
  | ok used => exact ⟨⟨fun _ => (usedChunks_ok hu).1, fun _ => rfl⟩, fun h => absurd rfl h⟩

/-- **C08** After a successful garbage collection the chunk store holds exactly the chunks that were
stored before and are referenced by a local revision, and a second garbage collection succeeds and
changes nothing. -/
theorem C08_gc_exact (s : Src) (hok : s.gc.1 = .ok ()) :
    (∀ h, Referenced s h → s.gc.2.w.chunks.get? h = s.w.chunks.get? h) ∧
    (∀ h, ¬ Referenced s h → s.gc.2.w.chunks.get? h = none) ∧
    s.gc.2.gc = (.ok (), s.gc.2) := by
  unfold Src.gc at hok ⊢
  cases hu : usedChunks s.w s.repo.localHistory [] with
  | error e => rw [hu] at hok; cases hok
  | ok used =>
    dsimp only
    obtain ⟨h1, h2⟩ := usedChunks_ok hu
    have hiff : ∀ h, h ∈ used ↔ Referenced s h := fun h => by
      rw [h2]; simp [Referenced]
    refine ⟨?_, ?_, ?_⟩
    · intro h hh; rw [purge_chunks, if_pos ((hiff h).2 hh)]
    · intro h hh; rw [purge_chunks, if_neg (fun hx => hh ((hiff h).1 hx))]
    · rw [usedChunks_metas (purge_metas s.w used), hu]
      dsimp only
      rw [purge_id _ _ (purge_ls s.w used)]

/-- The in-memory set of known chunks stays sound, so that later writes in the same process do not
rely on a chunk that was just deleted. -/
theorem C08_gc_seen_sound (env : Env) (s : Src) (hw : WOK env s.w) : WOK env s.gc.2.w := by
  unfold Src.gc
  cases usedChunks s.w s.repo.localHistory [] with
  | error e => exact hw
  | ok used => exact purge_ok hw used

/-! ### Concrete case -/

/-- A repository with the stored image "b", its revision and one unreferenced chunk. -/
def gcExample : Src :=
  { repo := { files := [], history := [⟨"b", 5, [("duration", 1)], .trusted, ∅, ∅, ""⟩,
      ⟨"r", 6, [("duration", 1)], .trusted, ∅, ∅, "peer"⟩] },
    w := { storedWorld with chunks := storedWorld.chunks ++ [(Test.hash [9], some [9])],
                            seen := [Test.hash [9]], log := [9] :: storedWorld.log } }

example : (⟨"b", 5, [("duration", 1)], .trusted, ∅, ∅, ""⟩ : Rev) ∈ gcExample.repo.localHistory := by decide

theorem gcExample_gc : gcExample.gc.1 = .ok () ∧ ¬ Referenced gcExample (Test.hash [9]) ∧
    Referenced gcExample (Test.hash [5, 6]) := by
  refine ⟨by decide +kernel, ?_, ?_⟩
  · rintro ⟨r, hr, m, hm, hh⟩
    have hr' : r ∈ [(⟨"b", 5, [("duration", 1)], .trusted, ∅, ∅, ""⟩ : Rev)] := by
      have e : gcExample.repo.localHistory = [⟨"b", 5, [("duration", 1)], .trusted, ∅, ∅, ""⟩] := by decide
      rwa [e] at hr
    simp only [List.mem_singleton] at hr'
    subst hr'
    have e : gcExample.w.metas.get? "b" =
      some (some ⟨[(0, Test.hash [1, 2, 3, 4]), (1, Test.hash [5, 6])], 6⟩) := rfl
    rw [e] at hm
    simp only [Option.some.injEq] at hm
    subst hm
    revert hh; decide
  · exact ⟨⟨"b", 5, [("duration", 1)], .trusted, ∅, ∅, ""⟩, by decide, ⟨[(0, Test.hash [1, 2, 3, 4]), (1, Test.hash [5, 6])], 6⟩, rfl, by decide⟩

theorem gcExample_ok : WOK Test.env gcExample.w := by
  refine ⟨?_, ?_⟩
  · intro h x hx
    have hm := Dict.mem_of_get? hx
    simp only [gcExample, storedWorld, List.cons_append, List.nil_append, List.mem_cons, Prod.mk.injEq,
      List.not_mem_nil, or_false] at hm
    rcases hm with ⟨rfl, rfl⟩ | ⟨rfl, rfl⟩ | ⟨rfl, rfl⟩
    · exact ⟨_, rfl, rfl, by simp [gcExample, storedWorld], by decide⟩
    · exact ⟨_, rfl, rfl, by simp [gcExample, storedWorld], by decide⟩
    · exact ⟨_, rfl, rfl, by simp [gcExample], by decide⟩
  · intro h hh
    simp only [gcExample, List.mem_singleton] at hh
    subst hh
    exact ⟨[9], by decide⟩

/-! ### Every theorem of this file applied to the repository above -/

/-- C07_gc_keeps_local -/
example := C07_gc_keeps_local Test.env gcExample gcExample_ok ⟨"b", 5, [("duration", 1)], .trusted, ∅, ∅, ""⟩ (by decide)

/-- C08_gc_succeeds_iff, C08_gc_exact, C08_gc_seen_sound -/
example := C08_gc_exact gcExample gcExample_gc.1
example := (C08_gc_succeeds_iff gcExample).1.1 gcExample_gc.1
example := C08_gc_seen_sound Test.env gcExample gcExample_ok

end Verif.Rbd
