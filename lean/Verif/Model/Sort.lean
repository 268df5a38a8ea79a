/-!
# Stable sorting

Python's `sorted` (builtin): a stable sort.  Insertion sort, which can be evaluated in proofs of concrete cases.
-/
namespace Verif

/-- Insert before the first element that is not smaller (builtin `sorted`). -/
def insertBy {α : Type} (le : α → α → Bool) (a : α) : List α → List α
  | [] => [a]
  | b :: l => if le a b then a :: b :: l else b :: insertBy le a l

/-- Stable sort (builtin `sorted`). -/
def sortBy {α : Type} (le : α → α → Bool) : List α → List α
  | [] => []
  | a :: l => insertBy le a (sortBy le l)

theorem insertBy_perm {α : Type} (le : α → α → Bool) (a : α) : ∀ l : List α, (insertBy le a l).Perm (a :: l)
  | [] => .refl _
  | b :: l => by
    unfold insertBy
    split
    · exact .refl _
    · exact ((insertBy_perm le a l).cons b).trans (.swap a b l)

theorem sortBy_perm {α : Type} (le : α → α → Bool) : ∀ l : List α, (sortBy le l).Perm l
  | [] => .refl _
  | a :: l => (insertBy_perm le a _).trans ((sortBy_perm le l).cons a)

theorem insertBy_sorted {α : Type} (le : α → α → Bool) (htot : ∀ a b, le a b = false → le b a = true)
    (htr : ∀ a b c, le a b = true → le b c = true → le a c = true) (a : α) :
    ∀ l : List α, l.Pairwise (fun a b => le a b = true) → (insertBy le a l).Pairwise (fun a b => le a b = true)
  | [], _ => by simp [insertBy]
  | b :: l, h => by
    unfold insertBy
    split
    · rename_i hab
      refine .cons ?_ h
      intro x hx
      rcases List.mem_cons.1 hx with rfl | hx
      · exact hab
      · exact htr _ _ _ hab (List.rel_of_pairwise_cons h hx)
    · rename_i hab
      refine .cons ?_ (insertBy_sorted le htot htr a l h.of_cons)
      intro x hx
      have := (insertBy_perm le a l).mem_iff.1 hx
      rcases List.mem_cons.1 this with rfl | hx
      · exact htot _ _ (by simpa using hab)
      · exact List.rel_of_pairwise_cons h hx

/-- The result is in order. -/
theorem sortBy_sorted {α : Type} (le : α → α → Bool) (htot : ∀ a b, le a b = false → le b a = true)
    (htr : ∀ a b c, le a b = true → le b c = true → le a c = true) :
    ∀ l : List α, (sortBy le l).Pairwise (fun a b => le a b = true)
  | [] => .nil
  | a :: l => insertBy_sorted le htot htr a _ (sortBy_sorted le htot htr l)

end Verif
