import Verif.Spec.History
/-!
# Specification: histories with damage to the stored data

Between any two events of a history chunk files may be lost, become unreadable or get other content, and mapping files
may be lost or become unreadable.
-/
namespace Verif.Backup
open Verif Verif.Chunked Verif.Spec Verif.Rbd Verif.Repo Verif.Files Verif.Diff

/-- One defect of the stored data.  A chunk file may get any other content, even the content of another chunk file or
of an earlier time, but not one that was constructed to have the hash the file is named after: a content with this hash is one that
backy hashed itself. -/
inductive Damage (env : Env) (w : World) : World → Prop
  | chunkLost (h : Hash) : Damage env w { w with chunks := w.chunks.erase h }
  | chunkUnreadable (h : Hash) : Damage env w { w with chunks := w.chunks.set h none }
  | chunkChanged (h : Hash) (d : Bytes) (hd : env.H d = h → d ∈ w.log) : Damage env w { w with chunks := w.chunks.set h (some d) }
  | imageLost (name : String) : Damage env w { w with metas := w.metas.erase name }
  | imageUnreadable (name : String) : Damage env w { w with metas := w.metas.set name none }

/-- A history with damage. -/
inductive Damaged (env : Env) : Sys → Sys → Prop
  | nil (s : Sys) : Damaged env s s
  | step {a b c : Sys} (h : Damaged env a b) (h' : Step env b c) : Damaged env a c
  | damage {a b : Sys} (h : Damaged env a b) (w : World) (h' : Damage env b.src.w w) :
      Damaged env a { b with src := { b.src with w } }

end Verif.Backup
