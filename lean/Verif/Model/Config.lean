import Verif.Model.Schedule
import Verif.Model.Commands
import Verif.Model.ApiServer
import Verif.Model.Api
/-!
# The configuration file: `daemon/__init__.py:70-119`, `schedule.py:52-76`, `source.py:270-310`, `daemon/api.py:253-323`

What `yaml.safe_load` gives is a value of type `Yaml`; keys that are not strings are left out.  `yaml.safe_dump` followed by
`yaml.safe_load` gives the same value (trusted).
-/
namespace Verif.Config
open Verif Verif.Repo

/-- What `yaml.safe_load` gives (`daemon/__init__.py:76`).  `float` carries the integer part, if there is one, and whether it is 0;
`date` stands for all other types. -/
inductive Yaml
  | null
  | bool (b : Bool)
  | int (n : Int)
  | float (trunc : Option Int) (zero : Bool)
  | str (s : String)
  | date
  | seq (l : List Yaml)
  | map (l : List (String × Yaml))

/-- `y.get(key, dflt)` (builtin); AttributeError if `y` is not a dict. -/
def Yaml.getD (y : Yaml) (key : String) (dflt : Yaml) : Except PyErr Yaml :=
  match y with
  | .map m => .ok ((Dict.get? m key).getD dflt)
  | _ => .error .unexpected

/-- `y[key]` (builtin) for a text `key`. -/
def Yaml.item (y : Yaml) (key : String) : Except PyErr Yaml :=
  match y with
  | .map m => match Dict.get? m key with
    | none => .error .key
    | some v => .ok v
  | _ => .error .type

/-- `y.items()` (builtin). -/
def Yaml.items (y : Yaml) : Except PyErr (List (String × Yaml)) :=
  match y with
  | .map m => .ok m
  | _ => .error .unexpected

/-- `int(y)` (builtin). -/
def pyIntOf (y : Yaml) : Except PyErr Int :=
  match y with
  | .int n => .ok n
  | .bool b => .ok (if b then 1 else 0)
  | .float (some n) _ => .ok n
  | .float none _ => .error .value
  | .str s => pyIntStr s.toList
  | _ => .error .type

/-- `Path(y)` (builtin). -/
def pathOf (y : Yaml) : Except PyErr String :=
  match y with
  | .str s => .ok s
  | _ => .error .type

/-- `bool(y)` (builtin). -/
def truthy (y : Yaml) : Bool :=
  match y with
  | .null => false
  | .bool b => b
  | .int n => n ≠ 0
  | .float _ zero => !zero
  | .str s => s ≠ ""
  | .date => true
  | .seq l => !l.isEmpty
  | .map m => !m.isEmpty

/-- `Path(callback) if callback else None` (`daemon/__init__.py:81-82`). -/
def callbackOf (y : Yaml) : Except PyErr (Option String) :=
  if truthy y then
    match pathOf y with
    | .error e => .error e
    | .ok s => .ok (some s)
  else .ok none

/-- `[a.strip() for a in ....split(",")]` (`daemon/__init__.py:87-89`). -/
def addrsOf (y : Yaml) : Except PyErr (List String) :=
  match y with
  | .str s => .ok ((Commands.splitComma s.toList).map (fun a => String.ofList (strip a)))
  | _ => .error .unexpected

/-- `str(n)` (builtin). -/
def decimal (n : Int) : List Char := if n < 0 then '-' :: Nat.toDigits 10 n.natAbs else Nat.toDigits 10 n.natAbs

/-- `f"http://{addr}:{port}"` (`daemon/__init__.py:101`). -/
def urlOf (addr : String) (port : Int) : String := String.ofList ("http://".toList ++ addr.toList ++ ':' :: decimal port)

/-- `api_cli_default` (`daemon/__init__.py:93-101`).  A text or list that contains `url` passes the test and leads to an error later;
here it is an error at once. -/
def cliDefaultOf (addrs : List String) (port : Int) (y : Yaml) : Except PyErr Yaml :=
  match addrs with
  | [] => .ok y
  | a :: _ =>
    if port = 0 then .ok y
    else
      match y with
      | .map m => .ok (if Dict.has m "url" then .map m else .map (Dict.set m "url" (.str (urlOf a port))))
      | _ => .error .type

/-- A `Schedule` (`schedule.py:55-67`): the definition, and for each tag the interval and the definition of the tag. -/
structure SchedObj where
  config : List (String × Yaml)
  tags : List (String × Int × List (String × Yaml))

/-- `parse_duration(spec["interval"])` (`schedule.py:67`): it must be a text (`str.endswith`). -/
def intervalOf (o : Option Yaml) : Except PyErr Int :=
  match o with
  | none => .error .key
  | some (.str s) => parseDuration s
  | some _ => .error .unexpected

/-- The body of the loop in `Schedule.configure` (`schedule.py:66-67`). -/
def specOf (y : Yaml) : Except PyErr (Int × List (String × Yaml)) :=
  match y with
  | .map spec => match intervalOf (Dict.get? spec "interval") with
    | .error e => .error e
    | .ok d => .ok (d, spec)
  | _ => .error .type

/-- The loop in `Schedule.configure` (`schedule.py:66-67`). -/
def configureTags : List (String × Yaml) → Except PyErr (List (String × Int × List (String × Yaml)))
  | [] => .ok []
  | (tag, y) :: rest =>
    match specOf y with
    | .error e => .error e
    | .ok d =>
      match configureTags rest with
      | .error e => .error e
      | .ok l => .ok ((tag, d) :: l)

/-- `Schedule.configure` (`schedule.py:63-67`); the definition is copied, so it is not changed. -/
def configure (y : Yaml) : Except PyErr SchedObj :=
  match y with
  | .map m => match configureTags m with
    | .error e => .error e
    | .ok tags => .ok ⟨m, tags⟩
  | _ => .error .unexpected

/-- `Schedule.to_dict` (`schedule.py:69-70`). -/
def SchedObj.toDict (s : SchedObj) : Yaml := .map s.config

/-- The loop over the schedules (`daemon/__init__.py:103-110`); see `Model/Reload.lean` for the identity of the objects. -/
def configureAll : List (String × Yaml) → Except PyErr (List (String × SchedObj))
  | [] => .ok []
  | (name, y) :: rest =>
    match configure y with
    | .error e => .error e
    | .ok s =>
      match configureAll rest with
      | .error e => .error e
      | .ok l => .ok ((name, s) :: l)

/-- The settings of the daemon (`daemon/__init__.py:34-45`). -/
structure Settings where
  workerLimit : Int
  baseDir : String
  callback : Option String
  peers : Yaml
  addrs : List String
  port : Int
  tokens : Yaml
  cliDefault : Yaml
  schedules : List (String × SchedObj)

/-- The part of `_read_config` about `global` (`daemon/__init__.py:78-82`). -/
def readGlobal (c : Yaml) : Except PyErr (Int × String × Option String) := do
  let g ← c.getD "global" (.map [])
  let limit ← pyIntOf (← g.getD "worker-limit" (.int 1))
  let base ← pathOf (← g.getD "base-dir" .null)
  let callback ← callbackOf (← g.getD "backup-completed-callback" .null)
  return (limit, base, callback)

/-- The part of `_read_config` about `api` (`daemon/__init__.py:86-101`). -/
def readApi (c : Yaml) : Except PyErr (List String × Int × Yaml × Yaml) := do
  let api ← c.getD "api" (.map [])
  let addrs ← addrsOf (← api.getD "addrs" (.str "::1, 127.0.0.1"))
  let port ← pyIntOf (← api.getD "port" (.int 6023))
  let tokens ← api.getD "tokens" (.map [])
  let cli ← cliDefaultOf addrs port (← api.getD "cli-default" (.map []))
  return (addrs, port, tokens, cli)

/-- `BackyDaemon._read_config` (`daemon/__init__.py:70-119`) once the file has been read. -/
def readConfig (c : Yaml) : Except PyErr Settings := do
  let (limit, base, callback) ← readGlobal c
  let peers ← c.getD "peers" (.map [])
  let (addrs, port, tokens, cli) ← readApi c
  let schedules ← configureAll (← (← c.item "schedules").items)
  return ⟨limit, base, callback, peers, addrs, port, tokens, cli, schedules⟩

/-! ## Repository configuration -/

/-- A `CmdLineSource` (`source.py:248-278`): the path and schedule of its repository, and the source part of the configuration. -/
structure Source where
  path : String
  schedule : SchedObj
  source : Yaml

/-- `CmdLineSource.to_config` (`source.py:305-310`). -/
def Source.toConfig (s : Source) : Yaml := .map [("path", .str s.path), ("source", s.source), ("schedule", .map s.schedule.config)]

/-- `CmdLineSource.from_config` (`source.py:280-288`). -/
def fromConfig (y : Yaml) : Except PyErr Source := do
  let schedule ← configure (← y.item "schedule")
  let path ← pathOf (← y.item "path")
  let source ← y.item "source"
  return ⟨path, schedule, source⟩

/-- `Job.configure` (`daemon/scheduler.py:52-67`) as far as the content of the `config` file is concerned; `base` is the base directory and
`name` the job. -/
def jobSource (base : String) (schedules : List (String × SchedObj)) (name : String) (y : Yaml) : Except PyErr Source := do
  let sched ← y.item "schedule"
  match sched with
  | .str n => match Dict.get? schedules n with
    | none => .error .key
    | some s => do
      let source ← y.item "source"
      return ⟨base ++ "/" ++ name, s, source⟩
  | _ => .error .key

/-! ## Clients -/

/-- What a `Client` is given (`daemon/api.py:294-313`): the URL, and the token for the header. -/
structure Client where
  url : String
  token : String
deriving DecidableEq

/-- `aiohttp.ClientSession(url, ...)`, `"Bearer " + token` (`daemon/api.py:304-308`): texts are needed. -/
def textOf (y : Yaml) : Except PyErr String :=
  match y with
  | .str s => .ok s
  | _ => .error .type

/-- `Client.from_conf` (`daemon/api.py:315-323`). -/
def fromConf (y : Yaml) : Except PyErr Client := do
  let url ← textOf (← y.item "url")
  let token ← textOf (← y.item "token")
  return ⟨url, token⟩

/-- `Command.api` (`cli/__init__.py:131-136`). -/
def cliClient (c : Yaml) : Except PyErr Client := do
  let st ← readConfig c
  fromConf st.cliDefault

/-- `ClientManager.__getitem__` (`daemon/api.py:267-272`); the clients made so far are kept. -/
def managerGet (peers : List (String × Yaml)) (name : String) (clients : Dict String Client) :
    Except PyErr Client × Dict String Client :=
  match clients.get? name with
  | some c => (.ok c, clients)
  | none =>
    if name = "" then (.error .key, clients)
    else
      match Dict.get? peers name with
      | none => (.error .key, clients)
      | some y => match fromConf y with
        | .error e => (.error e, clients)
        | .ok c => (.ok c, clients.set name c)

/-- The part of an URL that names host and port (`urllib.parse`, builtin): what follows `http://` up to the path, without user name. -/
def hostInfo (url : List Char) : Option (List Char) :=
  if url.take 7 = "http://".toList then
    some ((((url.drop 7).takeWhile (fun c => c ∉ ['/', '?', '#'])).reverse.takeWhile (fun c => c ≠ '@')).reverse)
  else none

/-- Host and port as texts (`urllib.parse`, builtin): an address with colons is to be put in brackets. -/
def splitHost (l : List Char) : List Char × List Char :=
  if '[' ∈ l then
    (((l.dropWhile (fun c => c ≠ '[')).drop 1).takeWhile (fun c => c ≠ ']'),
      (((((l.dropWhile (fun c => c ≠ '[')).drop 1).dropWhile (fun c => c ≠ ']')).drop 1).dropWhile (fun c => c ≠ ':')).drop 1)
  else (l.takeWhile (fun c => c ≠ ':'), (l.dropWhile (fun c => c ≠ ':')).drop 1)

/-- Where the requests of a client go (`daemon/api.py:304-312`, `yarl.URL`): ValueError if the URL is malformed.  Other protocols than
`http` are not modelled. -/
def target (url : String) : Except PyErr (String × Nat) :=
  match hostInfo url.toList with
  | none => .error .unexpected
  | some l =>
    if (splitHost l).1 = [] then .error .value
    else if (splitHost l).2 = [] then .ok (String.ofList (splitHost l).1, 80)
    else
      match pyIntStr (splitHost l).2 with
      | .error e => .error e
      | .ok n => if 0 ≤ n ∧ n ≤ 65535 then .ok (String.ofList (splitHost l).1, n.toNat) else .error .value

end Verif.Config
