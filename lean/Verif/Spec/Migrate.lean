import Verif.Model.Migrate
/-!
# Specification: what a chunk store holds
-/
namespace Verif.Migrate
open Verif

/-- A file of this name, with this content, is stored below the directory `xx`, in the old or the new place. -/
def Holds (t : Tree) (xx name : String) (c : Bytes) : Prop :=
  t.top.get? (xx, name) = some c ∨ ∃ yy, t.deep.get? (xx, yy, name) = some c

/-- Files of the same name below the same directory have the same content (a chunk is named after its content). -/
def Consistent (t : Tree) : Prop :=
  ∀ xx name c c', isChunk name = true → Holds t xx name c → Holds t xx name c' → c = c'

/-- Any number of starts of backy, each completed, failed or interrupted at any point. -/
inductive Starts : Tree → Tree → Prop
  | nil (t : Tree) : Starts t t
  | cons {a b c : Tree} (h : Starts a b) (h' : c ∈ (start b).2.log) : Starts a c

/-- Every file in an old sub directory is a chunk file. -/
def OnlyChunks (t : Tree) : Prop :=
  ∀ xx yy name c, t.deep.get? (xx, yy, name) = some c → (xx, yy) ∈ t.subs → yy.length = 2 → isChunk name = true

end Verif.Migrate
