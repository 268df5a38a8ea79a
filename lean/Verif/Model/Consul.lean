import Verif.Model.Repo
/-!
# Snapshots through the coordination service: `rbd/__init__.py:430-486`

The key-value store is changed by others at any time; here they may delete keys between the listing and the reading of a key
(`gone`).  JSON decoding is an arbitrary function.  The time limit is part of the outcome of polling.
-/
namespace Verif.Consul
open Verif Verif.Repo

/-- A value in a JSON object, as far as it matters. -/
inductive Field
  | missing
  | str (s : String)
  | other
deriving DecidableEq

/-- What `json.loads` gives (`rbd/__init__.py:466-468`): an error, an object (with the fields used here) or another value. -/
inductive Parsed
  | garbage
  | obj (vm snapshot : Field)
  | notObject
deriving DecidableEq

/-- What the polling loop sees (`rbd/__init__.py:445-452`). -/
inductive Poll
  | seen
  | timeout
  | lsFails
deriving DecidableEq

/-- The key-value store and the names of the image's snapshots. -/
structure St where
  kv : Dict String String
  snaps : List String
deriving DecidableEq

/-- `self.rbd.snap_create` (`rbd/client.py`); it fails if `fails` says so or if the snapshot exists. -/
def snapCreate (fails : Bool) (name : String) (s : St) : Except PyErr Unit × St :=
  if fails = true ∨ name ∈ s.snaps then (.error .unexpected, s) else (.ok (), { s with snaps := s.snaps ++ [name] })

/-- `s["snapshot"].startswith("backy-")` and the rest (`rbd/__init__.py:478-486`). -/
def cleanOwn (key : String) (snapshot : Field) (s : St) : Except PyErr Unit × St :=
  match snapshot with
  | .missing => (.error .key, s)
  | .other => (.error .unexpected, s)
  | .str n => if startsWith n "backy-" then (.ok (), { s with kv := s.kv.erase key }) else (.ok (), s)

/-- The body of the loop for a key that can be read (`rbd/__init__.py:465-486`).  After removing garbage there is no `continue`: `s`
is still the text, and `s["vm"]` is a TypeError. -/
def cleanValue (parse : String → Parsed) (vm key value : String) (s : St) : Except PyErr Unit × St :=
  match parse value with
  | .garbage => (.error .type, { s with kv := s.kv.erase key })
  | .notObject => (.error .type, s)
  | .obj .missing _ => (.error .key, s)
  | .obj .other _ => (.ok (), s)
  | .obj (.str v) snapshot => if v ≠ vm then (.ok (), s) else cleanOwn key snapshot s

/-- The loop of the `finally` block (`rbd/__init__.py:460-486`) over the keys found. -/
def cleanLoop (parse : String → Parsed) (vm : String) : List String → St → Except PyErr Unit × St
  | [], s => (.ok (), s)
  | key :: rest, s =>
    match s.kv.get? key with
    | none => cleanLoop parse vm rest s
    | some value =>
      match cleanValue parse vm key value s with
      | (.error e, s) => (.error e, s)
      | (.ok (), s) => cleanLoop parse vm rest s

/-- `consul.kv.find("snapshot/")` (`rbd/__init__.py:460`). -/
def snapshotKeys (kv : Dict String String) : List String := kv.keys.filter (fun k => startsWith k "snapshot/")

/-- The `finally` block (`rbd/__init__.py:454-486`): the keys in `gone` are deleted by others after the listing. -/
def cleanRequests (parse : String → Parsed) (vm : String) (gone : String → Bool) (s : St) : Except PyErr Unit × St :=
  cleanLoop parse vm (snapshotKeys s.kv) { s with kv := s.kv.filter (fun e => !gone e.1) }

/-- The `try` and `except` blocks (`rbd/__init__.py:441-453`). -/
def waitFor (poll : Poll) (createFails : Bool) (name : String) (s : St) : Except PyErr Unit × St :=
  match poll with
  | .seen => (.ok (), s)
  | .lsFails => (.error .unexpected, s)
  | .timeout => snapCreate createFails name s

/-- `create_snapshot` (`rbd/__init__.py:428-486`).  An exception in the `finally` block replaces the outcome (Python).  `consul` tells
whether token and VM are configured. -/
def createSnapshot (parse : String → Parsed) (render : String → String → String) (consul : Bool) (vm key name : String)
    (poll : Poll) (createFails : Bool) (gone : String → Bool) (s : St) : Except PyErr Unit × St :=
  if consul = false then snapCreate createFails name s
  else
    match waitFor poll createFails name { s with kv := s.kv.set key (render vm name) } with
    | (r, s) =>
      match cleanRequests parse vm gone s with
      | (.error e, s) => (.error e, s)
      | (.ok (), s) => (r, s)

end Verif.Consul
