import Verif.Model.Base
/-!
# Mapping a snapshot as a block device: `rbd/rbd.py:71-118`, `153-161`

The host has a table of mapped devices.  The `rbd` commands are parameters: any of them may fail,
`rbd map` may fail before or after the device appears, `rbd showmapped` may print anything.  JSON objects
of the mapping list are association lists from strings to strings (values that are no strings are left
out: `str.format` prints them, so nothing else depends on their type).
-/
namespace Verif.Mapping
open Verif

/-- One entry of `rbd showmapped --format=json` (`rbd/rbd.py:90`): a JSON object. -/
abbrev Entry := Dict String String

/-- The output of `rbd showmapped --format=json` (`rbd/rbd.py:72-84`): a JSON object of entries up to Luminous, a JSON
list of entries since Nautilus. -/
inductive Shown
  | object (es : Dict String Entry)
  | list (es : List Entry)

/-- A mapped device of the host: the snapshot it shows (pool, image, snapshot) and the device file. -/
structure Dev where
  pool : String
  name : String
  snap : String
  device : String
deriving DecidableEq, Repr

/-- `"{pool}/{name}@{snap}"` (`rbd/rbd.py:75`, `82`, `rbd/__init__.py:538`). -/
def spec (pool name snap : String) : String := pool ++ "/" ++ name ++ "@" ++ snap

/-- What the `rbd` program does during one use of `image_reader`: the text of `rbd --version` or a failure; whether `rbd map`
fails and whether it has mapped the device (its name is `device`) by then; the output of `rbd showmapped` for a table
of devices; whether the device file can be opened; whether `rbd unmap` fails. -/
structure Tool where
  version : Except PyErr String
  mapped : Bool
  mapFails : Option PyErr
  device : String
  shown : List Dev → Except PyErr Shown
  openFails : String → Option PyErr
  unmapFails : String → Option PyErr

/-- The host and the `rbd` command lines executed so far (only those that change the table). -/
inductive Cmd
  | map (pool name snap : String)
  | unmap (device : String)
deriving DecidableEq, Repr

/-- The table of mapped devices with the commands given so far. -/
structure Host where
  devices : List Dev
  log : List Cmd
deriving DecidableEq, Repr

/-- `"{pool}/{name}@{snap}".format(**mapping)` (`rbd/rbd.py:75`, `82`): KeyError if a key is missing. -/
def entrySpec (e : Entry) : Except PyErr String :=
  match e.get? "pool", e.get? "name", e.get? "snap" with
  | some p, some n, some s => .ok (spec p n s)
  | _, _, _ => .error .key

/-- The loop of both parsers (`rbd/rbd.py:74-77`, `81-84`): the first entry of the image. -/
def findEntry (image : String) : List Entry → Except PyErr Entry
  | [] => .error .runtime
  | e :: rest =>
    match entrySpec e with
    | .error err => .error err
    | .ok s => if s = image then .ok e else findEntry image rest

/-- `parse_mappings_pre_nautilus` (`rbd/rbd.py:72-77`): a list has no `.values()` (AttributeError). -/
def parsePre (image : String) : Shown → Except PyErr Entry
  | .object es => findEntry image es.values
  | .list _ => .error .unexpected

/-- `parse_mappings_since_nautilus` (`rbd/rbd.py:79-84`): iterating an object yields its keys, strings, and
`format(**"…")` is a TypeError. -/
def parseSince (image : String) : Shown → Except PyErr Entry
  | .list es => findEntry image es
  | .object [] => .error .runtime
  | .object (_ :: _) => .error .type

/-- `needle in text` (builtin). -/
def contains (needle : List Char) : List Char → Bool
  | [] => needle.isEmpty
  | c :: t => needle.isPrefixOf (c :: t) || contains needle t

/-- The choice of the parser (`rbd/rbd.py:92-99`): both branches without "nautilus" use the same parser. -/
def parse (version image : String) (s : Shown) : Except PyErr Entry :=
  if contains "nautilus".toList version.toList then parseSince image s
  else if contains "luminous".toList version.toList then parsePre image s
  else parsePre image s

/-- `scrub_mapping` (`rbd/rbd.py:101-115`) followed by `mapped["device"]` (`rbd/rbd.py:156`): `pool`, `name` and
`snap` exist by then. -/
def deviceOf (e : Entry) : Except PyErr String :=
  match e.get? "device" with
  | some d => .ok d
  | none => .error .key

/-- `rbd map` (`rbd/rbd.py:88`). -/
def Host.map (h : Host) (t : Tool) (pool name snap : String) : Except PyErr Unit × Host :=
  let h' : Host :=
    { devices := if t.mapped then h.devices ++ [⟨pool, name, snap, t.device⟩] else h.devices
      log := h.log ++ [.map pool name snap] }
  match t.mapFails with
  | some e => (.error e, h')
  | none => (.ok (), h')

/-- `rbd unmap` (`rbd/rbd.py:117-118`): when it succeeds the device is gone. -/
def Host.unmap (h : Host) (t : Tool) (device : String) : Except PyErr Unit × Host :=
  match t.unmapFails device with
  | some e => (.error e, { h with log := h.log ++ [.unmap device] })
  | none =>
    (.ok (), { devices := h.devices.filter (fun d => decide (d.device ≠ device)), log := h.log ++ [.unmap device] })

/-- `RBDClient.map` with `readonly=True` (`rbd/rbd.py:71-115`): the device of the mapping. -/
def Host.mapImage (h : Host) (t : Tool) (pool name snap : String) : Except PyErr String × Host :=
  match t.version with
  | .error e => (.error e, h)
  | .ok version =>
    match h.map t pool name snap with
    | (.error e, h) => (.error e, h)
    | (.ok (), h) =>
      match t.shown h.devices with
      | .error e => (.error e, h)
      | .ok shown =>
        match parse version (spec pool name snap) shown with
        | .error e => (.error e, h)
        | .ok entry => (deviceOf entry, h)

/-- `with rbd.image_reader(image) as source: body` (`rbd/rbd.py:153-161`): the body gets the opened device; the device is unmapped
whether or not the body raises, and an exception of `rbd unmap` replaces the one of the body.  `source.close()` of a file opened
for reading is taken not to fail. -/
def Host.reader {σ α : Type} (h : Host) (t : Tool) (pool name snap : String) (body : String → σ → Except PyErr α × σ) (s : σ) :
    Except PyErr α × σ × Host :=
  match h.mapImage t pool name snap with
  | (.error e, h) => (.error e, s, h)
  | (.ok device, h) =>
    match t.openFails device with
    | some e => (.error e, s, h)
    | none =>
      let r := body device s
      match h.unmap t device with
      | (.error e, h) => (.error e, r.2, h)
      | (.ok (), h) => (r.1, r.2, h)

end Verif.Mapping
