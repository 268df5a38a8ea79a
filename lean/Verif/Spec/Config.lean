import Verif.Model.Config
/-!
# Specification of the configuration file (`doc/man-backy.rst`, section "/etc/backy.conf")
-/
namespace Verif.Config
open Verif Verif.Repo

/-- The value of an entry such as `worker-limit` in the section `global`, if there is one. -/
def setting (c : Yaml) (sect key : String) : Option Yaml :=
  match c with
  | .map m => match Dict.get? m sect with
    | some (.map g) => Dict.get? g key
    | _ => none
  | _ => none

/-- A section is a mapping; one that is missing is empty. -/
def Section (m : List (String × Yaml)) (name : String) (g : List (String × Yaml)) : Prop :=
  Dict.get? m name = some (.map g) ∨ (Dict.get? m name = none ∧ g = [])

/-- A schedule: for each tag a mapping with an interval that can be parsed. -/
def ValidSchedule (y : Yaml) : Prop :=
  ∃ m, y = .map m ∧ ∀ e ∈ m, ∃ spec s d, e.2 = .map spec ∧ Dict.get? spec "interval" = some (.str s) ∧ parseDuration s = .ok d

/-- A value that counts as "nothing". -/
def Nothing (y : Yaml) : Prop :=
  y = .null ∨ y = .bool false ∨ y = .int 0 ∨ (∃ t, y = .float t true) ∨ y = .str "" ∨ y = .seq [] ∨ y = .map []

/-- A configuration that is accepted.  Whether the jobs refer to schedules that exist is checked later, and `keep` never is. -/
structure Valid (m g a : List (String × Yaml)) : Prop where
  global : Section m "global" g
  api : Section m "api" a
  limit : ∀ v, Dict.get? g "worker-limit" = some v → ∃ n, pyIntOf v = .ok n
  base : ∃ s, Dict.get? g "base-dir" = some (.str s)
  callback : ∀ v, Dict.get? g "backup-completed-callback" = some v → ¬ Nothing v → ∃ s, v = .str s
  addrs : ∀ v, Dict.get? a "addrs" = some v → ∃ s, v = .str s
  port : ∀ v, Dict.get? a "port" = some v → ∃ n, pyIntOf v = .ok n
  cli : ∀ v, Dict.get? a "cli-default" = some v →
    (∃ l, v = .map l) ∨ ∃ p, Dict.get? a "port" = some p ∧ pyIntOf p = .ok 0
  schedules : ∃ d, Dict.get? m "schedules" = some (.map d) ∧ ∀ e ∈ d, ValidSchedule e.2

/-- `s` is what the definition `y` says: the tags with their intervals in microseconds. -/
def Defines (y : Yaml) (s : SchedObj) : Prop :=
  y = .map s.config ∧ s.tags.map Prod.fst = s.config.map Prod.fst ∧
    ∀ tag d spec, (tag, d, spec) ∈ s.tags ↔
      ∃ text, (tag, .map spec) ∈ s.config ∧ Dict.get? spec "interval" = some (.str text) ∧ parseDuration text = .ok d

/-- A host name or an IPv4 address: nothing that has a meaning of its own in an URL. -/
structure PlainHost (a : String) : Prop where
  nonempty : a.toList ≠ []
  plain : ∀ c ∈ a.toList, c ∉ [':', '/', '?', '#', '@', '[']

/-- An IPv6 address: it has colons. -/
structure ColonHost (a : String) : Prop where
  colon : ':' ∈ a.toList
  plain : ∀ c ∈ a.toList, c ∉ ['/', '?', '#', '@', '[']

/-- The tokens of the configuration as the API uses them. -/
def Tokens (y : Yaml) (t : Dict String String) : Prop := y = .map (t.map (fun e => (e.1, .str e.2)))

/-- Giving out clients, one after the other. -/
def gets (peers : List (String × Yaml)) : List String → Dict String Client → List (Except PyErr Client)
  | [], _ => []
  | n :: rest, d => (managerGet peers n d).1 :: gets peers rest (managerGet peers n d).2

end Verif.Config
