import Verif.Model.Beside
import Verif.Spec.Image
/-!
# Specification: others that work on the directory of a running backup without removing chunk files
-/
namespace Verif.Beside
open Verif Verif.Chunked Verif.Repo Verif.Backup

/-- Every chunk file is readable and contains what its name says; `L` is everything that was ever written. -/
structure Sound (env : Env) (L : List Bytes) (w : World) : Prop where
  files : ∀ h x, w.chunks.get? h = some x → ∃ d, x = some d ∧ env.H d = h ∧ d ∈ w.log
  log : w.log ⊆ L

/-- One turn of the others: they remove or change no chunk file, the chunk files they add are proper ones, they leave the
mapping files in `keep` alone, and the `Store` object of the backup is not theirs. -/
structure Harmless (env : Env) (L : List Bytes) (keep : List String) (w w' : World) : Prop where
  kept : ∀ h d, w.chunks.get? h = some (some d) → w'.chunks.get? h = some (some d)
  added : ∀ h x, w'.chunks.get? h = some x → w.chunks.get? h = some x ∨
    ∃ d, x = some d ∧ env.H d = h ∧ d ∈ w'.log ∧ d.length ≤ env.cs
  metas : ∀ n ∈ keep, w'.metas.get? n = w.metas.get? n
  older : w.log ⊆ w'.log
  log : w'.log ⊆ L
  seen : w'.seen = w.seen
  force : w'.force = w.force
  tick : w'.tick = w.tick

/-- Whatever the others do, whenever they do it, is harmless for the backup: it leaves the mapping files of the revisions `known` to
the backup alone. -/
def BesideHarmless (env : Env) (L : List Bytes) (known : List Rev) (i : Others) : Prop :=
  ∀ n w, Sound env L w → Harmless env L (known.map Rev.uuid) w (i n w)

end Verif.Beside
