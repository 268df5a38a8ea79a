import Verif.Model.Repo
/-!
# Facts about scanning (`repository.py:210-222`)
-/
set_option linter.dupNamespace false
namespace Verif.Repo
open Verif

theorem insertRev_perm (r : Rev) : ∀ l, (insertRev r l).Perm (r :: l)
  | [] => .refl _
  | x :: l => by
    rw [insertRev]
    split
    · exact .refl _
    · exact ((insertRev_perm r l).cons x).trans (List.Perm.swap r x l)

theorem sortHist_perm : ∀ l : List Rev, (sortHist l).Perm l
  | [] => .refl _
  | r :: l => (insertRev_perm r _).trans ((sortHist_perm l).cons r)

theorem insertRev_sorted (r : Rev) : ∀ l, List.Pairwise (fun a b : Rev => a.ts ≤ b.ts) l →
    List.Pairwise (fun a b : Rev => a.ts ≤ b.ts) (insertRev r l)
  | [], _ => by simp [insertRev]
  | x :: l, h => by
    rw [insertRev]
    rw [List.pairwise_cons] at h
    split
    · rename_i hle
      rw [List.pairwise_cons, List.pairwise_cons]
      refine ⟨?_, h⟩
      intro b hb
      rcases List.mem_cons.1 hb with rfl | hb
      · exact hle
      · have := h.1 b hb; omega
    · rename_i hle
      rw [List.pairwise_cons]
      refine ⟨?_, insertRev_sorted r l h.2⟩
      intro b hb
      rcases List.mem_cons.1 ((insertRev_perm r l).mem_iff.1 hb) with rfl | hb
      · omega
      · exact h.1 b hb

theorem sortHist_sorted : ∀ l : List Rev, (sortHist l).Pairwise (fun a b => a.ts ≤ b.ts)
  | [] => by simp [sortHist]
  | r :: l => insertRev_sorted r _ (sortHist_sorted l)

theorem scanLoop_spec (files : List (String × RevFile)) : ∀ acc : List Rev,
    (acc.map Rev.uuid).Nodup →
    ((scanLoop files acc).map Rev.uuid).Nodup ∧
    (∀ r, r ∈ scanLoop files acc → r ∈ acc ∨ ∃ n f, (n, f) ∈ files ∧ f.link = false ∧ f.rev = r) ∧
    (∀ r, r ∈ acc → r ∈ scanLoop files acc) ∧
    (∀ n f, (n, f) ∈ files → f.link = false → ∃ r ∈ scanLoop files acc, r.uuid = f.rev.uuid) := by
  induction files with
  | nil => intro acc h; exact ⟨h, fun r hr => .inl hr, fun r hr => hr, by intro n f hf; simp at hf⟩
  | cons e files ih =>
    obtain ⟨n, f⟩ := e
    intro acc h
    rw [scanLoop]
    split
    · rename_i hl
      obtain ⟨h1, h2, h3, h4⟩ := ih acc h
      refine ⟨h1, fun r hr => ?_, h3, fun n' f' hm hf' => ?_⟩
      · rcases h2 r hr with h | ⟨n', f', hm, h⟩
        · exact .inl h
        · exact .inr ⟨n', f', by simp [hm], h⟩
      · rcases List.mem_cons.1 hm with hm | hm
        · cases hm; simp [hf'] at hl
        · exact h4 n' f' hm hf'
    · rename_i hl
      split
      · rename_i ha
        obtain ⟨h1, h2, h3, h4⟩ := ih acc h
        refine ⟨h1, fun r hr => ?_, h3, fun n' f' hm hf' => ?_⟩
        · rcases h2 r hr with h | ⟨n', f', hm, h⟩
          · exact .inl h
          · exact .inr ⟨n', f', by simp [hm], h⟩
        · rcases List.mem_cons.1 hm with hm | hm
          · cases hm
            simp only [List.any_eq_true, decide_eq_true_eq] at ha
            obtain ⟨x, hx, hxu⟩ := ha
            exact ⟨x, h3 x hx, hxu⟩
          · exact h4 n' f' hm hf'
      · rename_i ha
        have ha' : ∀ x ∈ acc, x.uuid ≠ f.rev.uuid := by
          intro x hx hxu
          exact ha (by simp only [List.any_eq_true, decide_eq_true_eq]; exact ⟨x, hx, hxu⟩)
        obtain ⟨h1, h2, h3, h4⟩ := ih (acc ++ [f.rev]) (by
          rw [List.map_append, List.nodup_append]
          refine ⟨h, by simp, ?_⟩
          intro a hx b hb
          simp only [List.map_cons, List.map_nil, List.mem_singleton] at hb
          simp only [List.mem_map] at hx
          obtain ⟨x, hx, rfl⟩ := hx
          rw [hb]; exact ha' x hx)
        refine ⟨h1, fun r hr => ?_, fun r hr => h3 r (by simp [hr]), fun n' f' hm hf' => ?_⟩
        · rcases h2 r hr with h | ⟨n', f', hm, h⟩
          · rcases List.mem_append.1 h with h | h
            · exact .inl h
            · simp only [List.mem_singleton] at h
              exact .inr ⟨n, f, by simp, by simpa using hl, h.symm⟩
          · exact .inr ⟨n', f', by simp [hm], h⟩
        · rcases List.mem_cons.1 hm with hm | hm
          · cases hm
            exact ⟨f.rev, h3 _ (by simp), rfl⟩
          · exact h4 n' f' hm hf'

/-- Every metadata file is named after the revision it contains (`revision.py:97-101`). -/
structure Named (files : Dict String RevFile) : Prop where
  nodup : files.keys.Nodup
  named : ∀ n f, (n, f) ∈ files → f.link = false → n = f.rev.uuid

/-- The revision stored in the metadata file of `uuid`, if there is one that is not a link. -/
def onDisk (files : Dict String RevFile) (uuid : String) : Option Rev :=
  match files.get? uuid with
  | some f => if f.link then none else some f.rev
  | none => none

theorem onDisk_eq_some {files : Dict String RevFile} {u : String} {r : Rev} :
    onDisk files u = some r ↔ files.get? u = some ⟨false, r⟩ := by
  unfold onDisk
  cases h : files.get? u with
  | none => simp
  | some f =>
    obtain ⟨l, x⟩ := f
    cases l <;> simp

theorem Repo.scan_mem {s : Repo} (hn : Named s.files) (r : Rev) :
    r ∈ s.scan.history ↔ onDisk s.files r.uuid = some r := by
  have hp : r ∈ s.scan.history ↔ r ∈ scanLoop s.files [] := (sortHist_perm _).mem_iff
  rw [hp, onDisk_eq_some]
  obtain ⟨_, h2, _, h4⟩ := scanLoop_spec s.files [] (by simp)
  constructor
  · intro hr
    rcases h2 r hr with h | ⟨n, f, hm, hf, rfl⟩
    · simp at h
    · rw [← hn.named n f hm hf]
      obtain ⟨l, x⟩ := f
      simp only at hf
      subst hf
      exact Dict.get?_of_mem hn.nodup hm
  · intro hr
    have hm := Dict.mem_of_get? hr
    obtain ⟨r', hr', hu⟩ := h4 _ _ hm rfl
    rcases h2 r' hr' with h | ⟨n, f, hm', hf, rfl⟩
    · simp at h
    · have h1 := hn.named n f hm' hf
      dsimp only at hu
      rw [hu] at h1
      rw [h1] at hm'
      have := Dict.get?_of_mem hn.nodup hm'
      rw [hr] at this
      cases this
      exact hr'

theorem Repo.scan_nodup (s : Repo) : (s.scan.history.map Rev.uuid).Nodup :=
  ((sortHist_perm _).map Rev.uuid).nodup_iff.2 (scanLoop_spec s.files [] (by simp)).1

theorem Repo.scan_sorted (s : Repo) : s.scan.history.Pairwise (fun a b => a.ts ≤ b.ts) :=
  sortHist_sorted _

theorem nodup_of_map_uuid {l : List Rev} (h : (l.map Rev.uuid).Nodup) : l.Nodup :=
  List.Nodup.of_map _ h

theorem eq_of_uuid {l : List Rev} (h : (l.map Rev.uuid).Nodup) {a b : Rev} (ha : a ∈ l) (hb : b ∈ l)
    (hu : a.uuid = b.uuid) : a = b := List.inj_on_of_nodup_map h ha hb hu

end Verif.Repo
