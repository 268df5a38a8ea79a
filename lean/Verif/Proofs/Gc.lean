import Verif.Model.Rbd
import Verif.Proofs.ChunkedOpen
/-! # Lemmas about `Store.purge` and garbage collection -/
namespace Verif.Chunked
open Verif Verif.Spec

/-- One step of `World.purge`. -/
def purgeStep (used : List Hash) (w : World) (h : Hash) : World :=
  if h ∈ used then w
  else { w with chunks := w.chunks.erase h, seen := w.seen.filter (· ≠ h) }

theorem purge_eq (w : World) (used : List Hash) : w.purge used = w.ls.foldl (purgeStep used) w := rfl

theorem foldl_purge (used : List Hash) (l : List Hash) (w : World) :
    (∀ h, (l.foldl (purgeStep used) w).chunks.get? h =
      if h ∈ l ∧ h ∉ used then none else w.chunks.get? h) ∧
    (∀ h, h ∈ (l.foldl (purgeStep used) w).seen ↔ h ∈ w.seen ∧ ¬ (h ∈ l ∧ h ∉ used)) ∧
    (l.foldl (purgeStep used) w).metas = w.metas ∧
    (l.foldl (purgeStep used) w).force = w.force ∧
    (l.foldl (purgeStep used) w).tick = w.tick ∧
    (l.foldl (purgeStep used) w).log = w.log := by
  induction l generalizing w with
  | nil => simp
  | cons a l ih =>
    simp only [List.foldl_cons]
    obtain ⟨h1, h2, h3, h4, h5, h6⟩ := ih (purgeStep used w a)
    by_cases ha : a ∈ used
    · have e : purgeStep used w a = w := by simp [purgeStep, ha]
      rw [e] at h1 h2 h3 h4 h5 h6
      rw [e]
      refine ⟨?_, ?_, h3, h4, h5, h6⟩
      · intro h; rw [h1]
        by_cases hh : h = a
        · subst hh; simp [ha]
        · simp [hh]
      · intro h; rw [h2]
        by_cases hh : h = a
        · subst hh; simp [ha]
        · simp [hh]
    · have e : purgeStep used w a =
        { w with chunks := w.chunks.erase a, seen := w.seen.filter (· ≠ a) } := by simp [purgeStep, ha]
      rw [e] at h1 h2 h3 h4 h5 h6
      rw [e]
      refine ⟨?_, ?_, h3, h4, h5, h6⟩
      · intro h; rw [h1]; dsimp only
        rw [Dict.get?_erase]
        by_cases hh : h = a
        · subst hh; simp [ha]
        · simp [hh]
      · intro h; rw [h2]; dsimp only
        by_cases hh : h = a
        · subst hh; simp [ha]
        · simp [hh]

theorem purge_chunks (w : World) (used : List Hash) (h : Hash) :
    (w.purge used).chunks.get? h = if h ∈ used then w.chunks.get? h else none := by
  rw [purge_eq, (foldl_purge used w.ls w).1]
  by_cases hu : h ∈ used
  · simp [hu]
  · by_cases hl : h ∈ w.ls
    · simp [hu, hl]
    · have : w.chunks.get? h = none := Dict.get?_eq_none_iff.2 hl
      simp [hu, this]

theorem purge_metas (w : World) (used : List Hash) : (w.purge used).metas = w.metas :=
  (foldl_purge used w.ls w).2.2.1

theorem purge_log (w : World) (used : List Hash) : (w.purge used).log = w.log :=
  (foldl_purge used w.ls w).2.2.2.2.2

theorem purge_force (w : World) (used : List Hash) : (w.purge used).force = w.force :=
  (foldl_purge used w.ls w).2.2.2.1

theorem purge_ok {env : Env} {w : World} (h : WOK env w) (used : List Hash) :
    WOK env (w.purge used) := by
  refine ⟨?_, ?_⟩
  · intro x y hy
    rw [purge_chunks] at hy
    split at hy
    · rw [purge_log]; exact h.good x y hy
    · cases hy
  · intro x hx
    rw [purge_eq, (foldl_purge used w.ls w).2.1] at hx
    obtain ⟨d, hd⟩ := h.seen x hx.1
    have hl : x ∈ w.ls := by
      unfold World.ls; rw [Dict.mem_keys_iff, hd]; rfl
    have hu : x ∈ used := by
      by_contra hn; exact hx.2 ⟨hl, hn⟩
    exact ⟨d, by rw [purge_chunks, if_pos hu]; exact hd⟩

theorem purge_id (w : World) (used : List Hash) (h : ∀ x ∈ w.ls, x ∈ used) : w.purge used = w := by
  rw [purge_eq]
  have : ∀ l : List Hash, (∀ x ∈ l, x ∈ used) → l.foldl (purgeStep used) w = w := by
    intro l
    induction l with
    | nil => intro _; rfl
    | cons a l ih =>
      intro hl
      have e : purgeStep used w a = w := by simp [purgeStep, hl a (by simp)]
      simp only [List.foldl_cons]
      rw [e]
      exact ih (fun x hx => hl x (by simp [hx]))
  exact this _ h

theorem purge_ls (w : World) (used : List Hash) (x : Hash) (h : x ∈ (w.purge used).ls) : x ∈ used := by
  unfold World.ls at h
  rw [Dict.mem_keys_iff, purge_chunks] at h
  by_contra hn
  simp [hn] at h

/-- An image whose chunks are all kept stays as it is. -/
theorem OnDisk.purge {env : Env} {w : World} {name : String} {c : Bytes} (h : OnDisk env w name c)
    (used : List Hash)
    (hu : ∀ m, w.metas.get? name = some (some m) → ∀ x ∈ m.mapping.values, x ∈ used) :
    OnDisk env (w.purge used) name c := by
  obtain ⟨m, h1, h2, h3, h4⟩ := h
  refine ⟨m, by rw [purge_metas]; exact h1, h2, ?_, ?_⟩
  · intro x hx
    obtain ⟨d, hd⟩ := h3 x hx
    exact ⟨d, by rw [purge_chunks, if_pos (hu m h1 x hx)]; exact hd⟩
  · intro p hp
    obtain ⟨x, d, e1, e2, e3, e4⟩ := h4 p hp
    exact ⟨x, d, e1, by rw [purge_chunks, if_pos (hu m h1 x (by
        simp only [Dict.values, List.mem_map]; exact ⟨_, Dict.mem_of_get? e1, rfl⟩))]; exact e2, e3, e4⟩

end Verif.Chunked

namespace Verif.Rbd
open Verif Verif.Chunked Verif.Repo

theorem mappedHashes_some {w : World} {n : String} {m : Meta} (h : w.metas.get? n = some (some m)) :
    mappedHashes w n = .ok m.mapping.values := by
  unfold mappedHashes File.open; rw [h]

theorem mappedHashes_ok {w : World} {n : String} {l : List Hash} (h : mappedHashes w n = .ok l) :
    ∃ m, w.metas.get? n = some (some m) ∧ l = m.mapping.values := by
  unfold mappedHashes File.open at h
  cases hm : w.metas.get? n with
  | none => rw [hm] at h; simp [rb] at h
  | some x =>
    cases x with
    | none => rw [hm] at h; simp at h
    | some m => rw [hm] at h; simp at h; exact ⟨m, rfl, h.symm⟩

theorem mappedHashes_metas {w w' : World} (h : w'.metas = w.metas) (n : String) :
    mappedHashes w' n = mappedHashes w n := by
  unfold mappedHashes File.open; rw [h]
  cases w.metas.get? n with
  | none => rfl
  | some x => cases x <;> rfl

theorem usedChunks_metas {w w' : World} (h : w'.metas = w.metas) (l : List Rev) (acc : List Hash) :
    usedChunks w' l acc = usedChunks w l acc := by
  induction l generalizing acc with
  | nil => rfl
  | cons r l ih =>
    unfold usedChunks
    rw [mappedHashes_metas h]
    cases mappedHashes w r.uuid with
    | error e => rfl
    | ok hs => exact ih _

theorem usedChunks_ok {w : World} {l : List Rev} {acc used : List Hash}
    (h : usedChunks w l acc = .ok used) :
    (∀ r ∈ l, ∃ m, w.metas.get? r.uuid = some (some m)) ∧
    ∀ x, x ∈ used ↔ x ∈ acc ∨ ∃ r ∈ l, ∃ m, w.metas.get? r.uuid = some (some m) ∧ x ∈ m.mapping.values := by
  induction l generalizing acc with
  | nil => simp [usedChunks] at h; subst h; simp
  | cons r l ih =>
    unfold usedChunks at h
    cases hm : mappedHashes w r.uuid with
    | error e => rw [hm] at h; cases h
    | ok hs =>
      rw [hm] at h
      obtain ⟨m, h1, h2⟩ := mappedHashes_ok hm
      obtain ⟨i1, i2⟩ := ih h
      refine ⟨?_, ?_⟩
      · intro r' hr'
        rcases List.mem_cons.1 hr' with rfl | hr'
        · exact ⟨m, h1⟩
        · exact i1 r' hr'
      · intro x
        rw [i2, List.mem_append, h2]
        constructor
        · rintro ((h | h) | ⟨r', hr', m', h3, h4⟩)
          · exact .inl h
          · exact .inr ⟨r, by simp, m, h1, h⟩
          · exact .inr ⟨r', by simp [hr'], m', h3, h4⟩
        · rintro (h | ⟨r', hr', m', h3, h4⟩)
          · exact .inl (.inl h)
          · rcases List.mem_cons.1 hr' with rfl | hr'
            · rw [h1] at h3; simp at h3; subst h3; exact .inl (.inr h4)
            · exact .inr ⟨r', hr', m', h3, h4⟩

theorem usedChunks_total {w : World} {l : List Rev} (h : ∀ r ∈ l, ∃ m, w.metas.get? r.uuid = some (some m))
    (acc : List Hash) : ∃ used, usedChunks w l acc = .ok used := by
  induction l generalizing acc with
  | nil => exact ⟨acc, rfl⟩
  | cons r l ih =>
    obtain ⟨m, hm⟩ := h r (by simp)
    unfold usedChunks
    rw [mappedHashes_some hm]
    exact ih (fun r' hr' => h r' (by simp [hr'])) _

theorem mem_values_of_get? {K V : Type} [DecidableEq K] {d : Dict K V} {k : K} {v : V}
    (h : d.get? k = some v) : v ∈ d.values := by
  simp only [Dict.values, List.mem_map]
  exact ⟨_, Dict.mem_of_get? h, rfl⟩

end Verif.Rbd
