import Verif.Spec.Image
/-!
# A concrete environment for the non-vacuity examples

Chunk size 4, block size 3, an injective hash, a constant clock.
-/
namespace Verif.Test
open Verif Verif.Spec

/-- An injective "hash". -/
def hash : Bytes → Nat
  | [] => 0
  | b :: t => (b.toNat + 1) + 257 * hash t

theorem hash_inj : ∀ a b : Bytes, hash a = hash b → a = b
  | [], [], _ => rfl
  | [], b :: t, h => by simp only [hash] at h; omega
  | a :: s, [], h => by simp only [hash] at h; omega
  | a :: s, b :: t, h => by
    simp only [hash] at h
    have ha := a.toNat_lt
    have hb := b.toNat_lt
    have h1 : a.toNat = b.toNat := by omega
    have h2 : hash s = hash t := by omega
    rw [hash_inj s t h2, UInt8.toNat_inj.1 h1]

theorem collFree (L : List Bytes) : CollFree hash L := fun a _ b _ h => hash_inj a b h

/-- Test parameters. -/
def env : Env := { cs := 4, cs_pos := by decide, blk := 3, blk_pos := by decide, H := hash, now := fun _ => 0 }

end Verif.Test
