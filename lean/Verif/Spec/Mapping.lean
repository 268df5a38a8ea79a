import Verif.Model.Mapping
/-!
# Specification: honest mapping lists

What a working `rbd showmapped` prints about the devices of a host.
-/
namespace Verif.Spec
open Verif Verif.Mapping

/-- The entries of a mapping list. -/
def Listed : Shown → List Entry
  | .object es => es.map Prod.snd
  | .list es => es

/-- The entry describes the device. -/
def Describes (e : Entry) (d : Dev) : Prop :=
  e.get? "pool" = some d.pool ∧ e.get? "name" = some d.name ∧ e.get? "snap" = some d.snap ∧
    e.get? "device" = some d.device

/-- Whatever `rbd showmapped` prints, it lists the mapped devices and no others. -/
def Honest (t : Tool) : Prop :=
  ∀ devs shown, t.shown devs = .ok shown → 
    (∀ e ∈ Listed shown, ∃ d ∈ devs, Describes e d) ∧ (∀ d ∈ devs, ∃ e ∈ Listed shown, Describes e d)

/-- The program prints the mapping list in the layout which backy expects of this version: a list for Nautilus, an
object otherwise. -/
def KnownRelease (t : Tool) : Prop :=
  ∀ devs shown v, t.shown devs = .ok shown → t.version = .ok v →
    ((∃ a b, v.toList = a ++ "nautilus".toList ++ b) ↔ ∃ es, shown = .list es)

/-- Names as Ceph allows them: no `/` in a pool name, no `@` in an image name. -/
def CephNames (pool name : String) : Prop := '/' ∉ pool.toList ∧ '@' ∉ name.toList

/-- The devices once `rbd map` ran: those mapped before, and the new one if the command mapped it. -/
def WithNew (h : Host) (t : Tool) (pool name snap : String) : List Dev :=
  if t.mapped then h.devices ++ [⟨pool, name, snap, t.device⟩] else h.devices

end Verif.Spec
