import Verif.Model.Repo
/-!
# Revision metadata dictionaries: `revision.py:82-95` and `revision.py:114-126`

The dictionary is what `yaml.safe_dump` gets and `yaml.safe_load` returns (and what the API sends as JSON,
where the timestamp is a string).  The YAML/JSON libraries themselves are trusted to return the dictionary
they were given.
-/
set_option linter.dupNamespace false
namespace Verif.Repo
open Verif

/-- Values in a metadata dictionary.  `time utc t` is a `datetime` whose time zone is UTC iff `utc`. -/
inductive Val
  | str (s : String)
  | time (utc : Bool) (t : Int)
  | stats (d : Dict String Nat)
  | list (l : List String)
deriving DecidableEq

/-- `Trust.value` (`revision.py:20-23`). -/
def Trust.value : Trust → String
  | .trusted => "trusted"
  | .distrusted => "distrusted"
  | .verified => "verified"

/-- `Trust(s)` (`revision.py:94`, builtin `Enum` lookup by value). -/
def Trust.ofValue (s : String) : Except PyErr Trust :=
  if s = "trusted" then .ok .trusted
  else if s = "distrusted" then .ok .distrusted
  else if s = "verified" then .ok .verified
  else .error .value

/-- `Revision.to_dict` (`revision.py:114-126`).  `list(set)` enumerates the set in an arbitrary order, so the
two lists are parameters; `parent` is the id of `get_parent()` or `""`. -/
def Rev.toDict (r : Rev) (parent : String) (tags origTags : List String) : Dict String Val :=
  [("uuid", .str r.uuid), ("timestamp", .time true r.ts), ("parent", .str parent), ("stats", .stats r.stats),
   ("trust", .str r.trust.value), ("tags", .list tags), ("orig_tags", .list origTags),
   ("server", .str r.server)]

/-- The timestamp of `Revision.from_dict` (`revision.py:84-87`); `iso` is `datetime.fromisoformat`
(`none` is ValueError, the flag tells whether the zone is UTC). -/
def loadTs (iso : String → Option (Bool × Int)) : Val → Except PyErr Int
  | .str s => match iso s with
    | none => .error .value
    | some (true, t) => .ok t
    | some (false, _) => .error .assertion
  | .time true t => .ok t
  | .time false _ => .error .assertion
  | _ => .error .type

/-- `set(v)` of a list (`revision.py:90-91`). -/
def loadSet : Option Val → Except PyErr (Finset String)
  | none => .ok ∅
  | some (.list l) => .ok l.toFinset
  | some _ => .error .type

/-- `metadata.get("stats", {})` (`revision.py:89`). -/
def loadStats : Option Val → Except PyErr (Dict String Nat)
  | none => .ok []
  | some (.stats d) => .ok d
  | some _ => .error .type

/-- `metadata.get("server", "")` (`revision.py:92`). -/
def loadStr (dflt : String) : Option Val → Except PyErr String
  | none => .ok dflt
  | some (.str s) => .ok s
  | some _ => .error .type

/-- `Revision.from_dict` (`revision.py:82-95`).  Simplified: a value of another type than the code
expects is an immediate TypeError here. -/
def Rev.fromDict (iso : String → Option (Bool × Int)) (d : Dict String Val) : Except PyErr Rev :=
  match d.get? "timestamp" with
  | none => .error .key
  | some tsv =>
    match loadTs iso tsv with
    | .error e => .error e
    | .ok ts =>
      match d.get? "uuid" with
      | none => .error .key
      | some (.str uuid) => do
        let stats ← loadStats (d.get? "stats")
        let tags ← loadSet (d.get? "tags")
        let origTags ← loadSet (d.get? "orig_tags")
        let server ← loadStr "" (d.get? "server")
        let tv ← loadStr "trusted" (d.get? "trust")
        let trust ← Trust.ofValue tv
        return { uuid, ts, stats, trust, tags, origTags, server }
      | some _ => .error .type

end Verif.Repo
