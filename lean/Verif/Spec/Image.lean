import Verif.Model.Chunked
/-!
# Specification vocabulary: collision freeness, sound chunk stores, stored images
-/
namespace Verif.Spec
open Verif

/-- The hash function has no collision among the given contents. -/
def CollFree (H : Bytes → Hash) (L : List Bytes) : Prop :=
  ∀ a ∈ L, ∀ b ∈ L, H a = H b → a = b

theorem CollFree.mono {H : Bytes → Hash} {L L' : List Bytes} (h : CollFree H L) (hs : L' ⊆ L) :
    CollFree H L' := fun a ha b hb e => h a (hs ha) b (hs hb) e

end Verif.Spec

namespace Verif.Chunked
open Verif

/-- Every chunk file is readable, hashes to its name and is logged; everything seen exists. -/
structure WOK (env : Env) (w : World) : Prop where
  good : ∀ h x, w.chunks.get? h = some x →
    ∃ d, x = some d ∧ env.H d = h ∧ d ∈ w.log ∧ d.length ≤ env.cs
  seen : ∀ h ∈ w.seen, ∃ d, w.chunks.get? h = some (some d)

/-- All mapped hashes exist. -/
def MapOK (w : World) (m : Dict Nat Hash) : Prop :=
  ∀ h ∈ m.values, ∃ d, w.chunks.get? h = some (some d)

theorem MapOK.get {w : World} {m : Dict Nat Hash} (hm : MapOK w m) (id : Nat) (h : Hash) (hh : m.get? id = some h) :
    ∃ d, w.chunks.get? h = some (some d) :=
  hm h (by simp only [Dict.values, List.mem_map]; exact ⟨_, Dict.mem_of_get? hh, rfl⟩)

/-- The image stored on disk under `name` is complete and readable and has content `c`:
the recorded size is right, every recorded chunk exists, and every byte is found at its place in
a chunk that hashes to the recorded value. -/
def OnDisk (env : Env) (w : World) (name : String) (c : Bytes) : Prop :=
  ∃ m, w.metas.get? name = some (some m) ∧ m.size = c.length ∧ MapOK w m.mapping ∧
    ∀ p, p < c.length → ∃ h d, m.mapping.get? (p / env.cs) = some h ∧
      w.chunks.get? h = some (some d) ∧ env.H d = h ∧ d[p % env.cs]? = c[p]?

end Verif.Chunked
