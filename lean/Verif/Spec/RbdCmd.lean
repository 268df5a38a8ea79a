import Verif.Model.RbdCmd
/-!
# Specification: what `rbd` commands may do to a Ceph cluster

Only what the manual of `rbd` promises is used: a few commands are known not to change images, `snap create` and `snap rm` change one
snapshot, and every other command line - also one whose arguments are not of the expected form - may do anything.
-/
namespace Verif.RbdCmd
open Verif Verif.Repo

/-- An image: its content and its snapshots. -/
structure Image where
  content : Bytes
  snap : String → Option Bytes

/-- A mapped block device: what it shows and whether it can be written. -/
structure Device where
  pool : String
  image : String
  snap : String
  readOnly : Bool

/-- All images of all pools of a cluster, and the devices mapped on this host. -/
structure Cluster where
  image : String → String → Option Image
  devices : List Device

/-- A name as Ceph allows it, which `rbd` does not take for an option. -/
structure Name (s : String) : Prop where
  slash : '/' ∉ s.toList
  at_ : '@' ∉ s.toList
  option : startsWith s "-" = false
  nonempty : s ≠ ""

/-- The argument denotes this snapshot. -/
structure Denotes (arg pool image snap : String) : Prop where
  poolName : Name pool
  imageName : Name image
  snapName : Name snap
  eq : arg = pool ++ "/" ++ image ++ "@" ++ snap

/-- Not an option. -/
def Plain (arg : String) : Prop := startsWith arg "-" = false

/-- The cluster with one image changed. -/
def Cluster.update (c : Cluster) (pool image : String) (f : Image → Image) : Cluster :=
  { c with image := fun p i => if p = pool ∧ i = image then (c.image p i).map f else c.image p i }

/-- A new snapshot, unless there is one. -/
def Image.create (i : Image) (name : String) : Image :=
  { i with snap := fun s => if s = name then (match i.snap s with | some b => some b | none => some i.content) else i.snap s }

/-- Without this snapshot. -/
def Image.remove (i : Image) (name : String) : Image := { i with snap := fun s => if s = name then none else i.snap s }

/-- What one `rbd` process may do.  It may also fail before it did anything. -/
def Effect (argv : List String) (c c' : Cluster) : Prop :=
  c' = c ∨
  match argv with
  | [_, "--version"] => False
  | [_, "showmapped", "--format=json"] => False
  | [_, "info", a, "--format=json"] => ¬ Plain a
  | [_, "snap", "ls", a, "--format=json"] => ¬ Plain a
  | [_, "export", a, "-"] => ¬ Plain a
  | [_, "export-diff", a, "--from-snap", b, "-"] => ¬ (Plain a ∧ Plain b)
  | [_, "export-diff", a, "--from-snap", b, "--whole-object", "-"] => ¬ (Plain a ∧ Plain b)
  | [_, "snap", "create", a] => ∀ pool image snap, Denotes a pool image snap → c' = c.update pool image (·.create snap)
  | [_, "snap", "rm", a] => ∀ pool image snap, Denotes a pool image snap → c' = c.update pool image (·.remove snap)
  | [_, "map", a] => ∀ pool image snap, Denotes a pool image snap → c' = { c with devices := c.devices ++ [⟨pool, image, snap, false⟩] }
  | [_, "map", a, "--read-only"] =>
    ∀ pool image snap, Denotes a pool image snap → c' = { c with devices := c.devices ++ [⟨pool, image, snap, true⟩] }
  | [_, "unmap", a] => Plain a → c'.image = c.image ∧ c'.devices.Sublist c.devices
  | _ => True

/-- The only differences are backy's snapshots of this image: some may be gone, and the one of this revision may be there, with the
content of the image.  Devices may be gone, and one that shows this snapshot, read only, may be there. -/
structure OnlyOwn (pool image uuid : String) (c c' : Cluster) : Prop where
  elsewhere : ∀ p i, (p, i) ≠ (pool, image) → c'.image p i = c.image p i
  same : (c'.image pool image).map Image.content = (c.image pool image).map Image.content
  foreign : ∀ s, startsWith s "backy-" = false →
    (c'.image pool image).map (fun x => x.snap s) = (c.image pool image).map (fun x => x.snap s)
  own : ∀ x x', c.image pool image = some x → c'.image pool image = some x' → ∀ s b, x'.snap s = some b →
    x.snap s = some b ∨ (s = "backy-" ++ uuid ∧ x.snap s = none ∧ b = x.content)
  devices : ∀ d ∈ c'.devices, d ∈ c.devices ∨ d = ⟨pool, image, "backy-" ++ uuid, true⟩

/-- The entries of a mapping list. -/
def entries : Mapping.Shown → List Mapping.Entry
  | .object es => es.values
  | .list es => es

/-- The answers of `rbd` are of the right form: listed snapshots have names that Ceph allows, mapped devices are paths. -/
structure Honest (a : Ans) : Prop where
  names : ∀ n, some n ∈ a.names → Name n
  devices : ∀ e ∈ entries a.shown, ∀ d, e.get? "device" = some d → startsWith d "/" = true

/-- The command reads from a snapshot: `rbd export`, `export-diff` and `map`. -/
def ReadsFrom (argv : List String) (arg : String) : Prop :=
  (∃ rest, argv = "rbd" :: "export" :: arg :: rest) ∨ (∃ rest, argv = "rbd" :: "export-diff" :: arg :: rest) ∨
    ∃ rest, argv = "rbd" :: "map" :: arg :: rest

end Verif.RbdCmd
