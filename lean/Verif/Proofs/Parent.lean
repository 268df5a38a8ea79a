import Verif.Model.Backup
/-! # The parent of a new revision -/
namespace Verif.Backup
open Verif Verif.Chunked Verif.Spec Verif.Rbd Verif.Repo Verif.Files Verif.Diff

/-- Not distrusted and of the same server. -/
def okParent (r x : Rev) : Bool := decide (x.trust ≠ .distrusted) && decide (x.server = r.server)

theorem getParentLoop_prefix (r : Rev) (hr : r.trust ≠ .distrusted) (b : List Rev) :
    ∀ (a : List Rev) (prev : Option Rev), (∀ x ∈ a, x.uuid ≠ r.uuid) →
      getParentLoop false r (a ++ r :: b) prev = ((a.filter (okParent r)).getLast?).or prev := by
  intro a
  induction a with
  | nil =>
    intro prev _
    simp [getParentLoop, hr]
  | cons x a ih =>
    intro prev hx
    have hx1 := hx x (by simp)
    have hx2 : ∀ y ∈ a, y.uuid ≠ r.uuid := fun y hy => hx y (by simp [hy])
    simp only [List.cons_append, getParentLoop]
    by_cases h1 : x.trust = .distrusted
    · rw [if_pos ⟨trivial, h1⟩, ih prev hx2, List.filter_cons_of_neg (by simp [okParent, h1])]
    · rw [if_neg (by simp [h1])]
      by_cases h2 : x.server = r.server
      · rw [if_neg (by simp [h2]), if_neg hx1, ih _ hx2, List.filter_cons_of_pos (by simp [okParent, h1, h2])]
        rw [List.getLast?_cons]
        cases (a.filter (okParent r)).getLast? <;> simp
      · rw [if_pos h2, ih prev hx2, List.filter_cons_of_neg (by simp [okParent, h2])]

theorem filter_getLast?_split {p : Rev → Bool} {a : List Rev} {x : Rev} (h : (a.filter p).getLast? = some x) :
    ∃ a1 a2, a = a1 ++ x :: a2 ∧ p x = true ∧ ∀ y ∈ a2, p y = false := by
  induction a using List.reverseRecOn with
  | nil => simp at h
  | append_singleton l z ih =>
    by_cases hz : p z = true
    · rw [List.filter_append, List.filter_cons_of_pos hz] at h
      simp at h
      subst h
      exact ⟨l, [], rfl, hz, by simp⟩
    · rw [List.filter_append, List.filter_cons_of_neg hz] at h
      simp only [List.filter_nil, List.append_nil] at h
      obtain ⟨a1, a2, rfl, h2, h3⟩ := ih h
      refine ⟨a1, a2 ++ [z], by simp, h2, ?_⟩
      intro y hy
      rcases List.mem_append.1 hy with hy | hy
      · exact h3 y hy
      · simp at hy; subst hy; simpa using hz

/-- A revision an incremental backup of `r` may be based on. -/
structure Candidate (snaps : Dict String Bytes) (r p : Rev) : Prop where
  trust : p.trust ≠ .distrusted
  server : p.server = r.server
  snap : snaps.has (snapName p.uuid) = true

theorem parentLoop_spec (snaps : Dict String Bytes) (repo : Repo) (fuel : Nat) : ∀ (a : List Rev) (r : Rev) (b : List Rev),
    repo.history = a ++ r :: b → (repo.history.map (·.uuid)).Nodup → r.trust ≠ .distrusted → a.length < fuel →
    ∃ res, parentLoop snaps false repo fuel r = .ok res ∧
      (∀ p, res = some p → ∃ a1 a2, a = a1 ++ p :: a2 ∧ Candidate snaps r p ∧ ∀ x ∈ a2, ¬ Candidate snaps r x) ∧
      (res = none → ∀ x ∈ a, ¬ Candidate snaps r x) := by
  induction fuel with
  | zero => intro a r b _ _ _ h; omega
  | succ n ih =>
    intro a r b hh hn hr hf
    have hne : ∀ x ∈ a, x.uuid ≠ r.uuid := by
      intro x hx heq
      rw [hh, List.map_append, List.map_cons] at hn
      have := List.disjoint_of_nodup_append hn (List.mem_map_of_mem hx) (by rw [heq]; simp)
      exact this
    have hgp : repo.getParent r = (a.filter (okParent r)).getLast? := by
      unfold Repo.getParent
      rw [hh, getParentLoop_prefix r hr b a none hne]
      simp
    simp only [parentLoop]
    rw [hgp]
    have hcand : ∀ x, Candidate snaps r x → okParent r x = true := by
      intro x hx; simp [okParent, hx.trust, hx.server]
    cases hl : (a.filter (okParent r)).getLast? with
    | none =>
      refine ⟨none, rfl, by simp, ?_⟩
      intro _ x hx hc
      rw [List.getLast?_eq_none_iff, List.filter_eq_nil_iff] at hl
      exact hl x hx (hcand x hc)
    | some p =>
      obtain ⟨a1, a2, rfl, hp, ha2⟩ := filter_getLast?_split hl
      have hp' : p.trust ≠ .distrusted ∧ p.server = r.server := by simpa [okParent] using hp
      dsimp only
      rw [if_neg (by simp)]
      by_cases hs : snaps.has (snapName p.uuid) = true
      · rw [if_pos hs]
        refine ⟨some p, rfl, ?_, by simp⟩
        intro q hq
        cases hq
        refine ⟨a1, a2, rfl, ⟨hp'.1, hp'.2, hs⟩, ?_⟩
        intro x hx hc
        have := ha2 x hx
        rw [hcand x hc] at this
        cases this
      · rw [if_neg hs]
        have hh' : repo.history = a1 ++ p :: (a2 ++ r :: b) := by rw [hh]; simp
        obtain ⟨res, e1, e2, e3⟩ := ih a1 p (a2 ++ r :: b) hh' hn hp'.1 (by simp at hf; omega)
        have hiff : ∀ x, Candidate snaps p x ↔ Candidate snaps r x := by
          intro x
          exact ⟨fun h => ⟨h.trust, h.server.trans hp'.2, h.snap⟩, fun h => ⟨h.trust, h.server.trans hp'.2.symm, h.snap⟩⟩
        refine ⟨res, e1, ?_, ?_⟩
        · intro q hq
          obtain ⟨b1, b2, rfl, c1, c2⟩ := e2 q hq
          refine ⟨b1, b2 ++ p :: a2, by simp, (hiff q).1 c1, ?_⟩
          intro x hx hc
          rcases List.mem_append.1 hx with hx | hx
          · exact c2 x hx ((hiff x).2 hc)
          · rcases List.mem_cons.1 hx with hx | hx
            · subst hx; exact hs hc.snap
            · have := ha2 x hx
              rw [hcand x hc] at this
              cases this
        · intro hq x hx hc
          rcases List.mem_append.1 hx with hx | hx
          · exact e3 hq x hx ((hiff x).2 hc)
          · rcases List.mem_cons.1 hx with hx | hx
            · subst hx; exact hs hc.snap
            · have := ha2 x hx
              rw [hcand x hc] at this
              cases this

end Verif.Backup
