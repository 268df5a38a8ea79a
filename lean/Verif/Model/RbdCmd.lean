import Verif.Model.Backup
import Verif.Model.Mapping
/-!
# The `rbd` command lines of a backup: `rbd/rbd.py:36-176`, `rbd/__init__.py:400-579`

Which `rbd` commands a backup gives, as a program that interacts with its environment: every command gets an arbitrary answer, and
everything that is done without `rbd` (writing the image, comparing, Consul, metadata) has an arbitrary outcome.  `Model/Backup` models
the data; here only the command lines and what depends on their answers matter.
-/
namespace Verif.RbdCmd
open Verif Verif.Repo Verif.Backup

/-- The answer of one `rbd` process: the exit code and what is on its standard output: whether it is JSON and whether the
value counts as true (`info`), the names of the objects in a list (`snap ls`; none for an object without a name), the mapping list
(`showmapped`), the text (`--version`). -/
structure Ans where
  code : Nat
  json : Bool
  truth : Bool
  names : List (Option String)
  shown : Mapping.Shown
  text : String

/-- A program that gives `rbd` commands: it ends (with a result or an exception), runs `rbd` and goes on with the answer, or does
something else and goes on with its outcome. -/
inductive Prog (α : Type) : Type
  | done (r : Except PyErr α)
  | rbd (argv : List String) (k : Ans → Prog α)
  | other (k : Except PyErr Bool → Prog α)

/-- Python's `;`: an exception ends the program (builtin). -/
def Prog.bind {α β : Type} : Prog α → (α → Prog β) → Prog β
  | .done (.error e), _ => .done (.error e)
  | .done (.ok a), f => f a
  | .rbd argv k, f => .rbd argv (fun a => (k a).bind f)
  | .other k, f => .other (fun a => (k a).bind f)

/-- The outcome of a program as a value: the basis of `try` (builtin). -/
def Prog.attempt {α : Type} : Prog α → Prog (Except PyErr α)
  | .done r => .done (.ok r)
  | .rbd argv k => .rbd argv (fun a => (k a).attempt)
  | .other k => .other (fun a => (k a).attempt)

/-- Something that gives no `rbd` command and may raise. -/
def work : Prog Bool := .other .done

/-- `try: p finally: q` (builtin): an exception of `q` replaces the outcome of `p`. -/
def Prog.finally_ {α : Type} (p : Prog α) (q : Prog Unit) : Prog α :=
  p.attempt.bind (fun r => q.bind (fun _ => .done r))

/-- The name of the program (`ext_deps.py:22`). -/
def RBD : String := "rbd"

/-- The command line of `RBDClient._rbd` (`rbd/rbd.py:45-52`): empty arguments are dropped. -/
def cmdline (cmd : List String) (json : Bool) : List String :=
  RBD :: (cmd.filter (fun x => decide (x ≠ "")) ++ if json then ["--format=json"] else [])

/-- Whether `_rbd` raises (`rbd/rbd.py:36-61`): CalledProcessError, or an output that is not JSON. -/
def failure (json : Bool) (a : Ans) : Option PyErr :=
  if a.code ≠ 0 then some .unexpected else if json = true ∧ a.json = false then some .value else none

/-- What `_rbd` makes of an answer. -/
def checked (json : Bool) (a : Ans) : Prog Ans :=
  match failure json a with
  | some e => .done (.error e)
  | none => .done (.ok a)

/-- `RBDClient._rbd` (`rbd/rbd.py:45-61`). -/
def run (cmd : List String) (json : Bool) : Prog Ans := .rbd (cmdline cmd json) (checked json)

/-- What `exists` makes of an answer (`rbd/rbd.py:64-69`). -/
def existsAns (a : Ans) : Except PyErr Bool :=
  if a.code = 2 then .ok false
  else match failure true a with
    | some e => .error e
    | none => .ok a.truth

/-- `RBDClient.exists` (`rbd/rbd.py:63-69`). -/
def exists_ (snapspec : String) : Prog Bool := .rbd (cmdline ["info", snapspec] true) (fun a => .done (existsAns a))

/-- The device of a mapping (`rbd/rbd.py:92-115`, `156`). -/
def deviceIn (version image : String) (s : Mapping.Shown) : Except PyErr String :=
  match Mapping.parse version image s with
  | .error e => .error e
  | .ok entry => Mapping.deviceOf entry

/-- `RBDClient.map` (`rbd/rbd.py:71-115`): the device. -/
def map (image : String) (readonly : Bool) : Prog String :=
  (run ["--version"] false).bind (fun v =>
    (run ["map", image, if readonly then "--read-only" else ""] false).bind (fun _ =>
      (run ["showmapped"] true).bind (fun m => .done (deviceIn v.text image m.shown))))

/-- `RBDClient.unmap` (`rbd/rbd.py:117-118`). -/
def unmap (device : String) : Prog Unit := (run ["unmap", device] false).bind (fun _ => .done (.ok ()))

/-- `RBDClient.snap_create` (`rbd/rbd.py:120-121`). -/
def snapCreate (image : String) : Prog Unit := (run ["snap", "create", image] false).bind (fun _ => .done (.ok ()))

/-- `RBDClient.snap_ls` (`rbd/rbd.py:123-124`). -/
def snapLs (image : String) : Prog (List (Option String)) := (run ["snap", "ls", image] true).bind (fun a => .done (.ok a.names))

/-- `RBDClient.snap_rm` (`rbd/rbd.py:126-127`). -/
def snapRm (image : String) : Prog Unit := (run ["snap", "rm", image] false).bind (fun _ => .done (.ok ()))

/-- `RBDClient.export_diff` around its body (`rbd/rbd.py:129-151`): the exit code is ignored; `whole` is
`CEPH_RBD_SUPPORTS_WHOLE_OBJECT_DIFF`. -/
def exportDiff {α : Type} (whole : Bool) (new old : String) (body : Prog α) : Prog α :=
  .rbd ([RBD, "export-diff", new, "--from-snap", old] ++ (if whole then ["--whole-object"] else []) ++ ["-"]) (fun _ => body)

/-- `RBDClient.export` around its body (`rbd/rbd.py:163-179`): the exit code is ignored. -/
def export_ {α : Type} (image : String) (body : Prog α) : Prog α := .rbd [RBD, "export", image, "-"] (fun _ => body)

/-- `RBDClient.image_reader` around its body (`rbd/rbd.py:153-161`); opening the device may raise. -/
def imageReader {α : Type} (image : String) (body : Prog α) : Prog α :=
  (map image true).bind (fun device => work.bind (fun _ => body.finally_ (unmap device)))

/-- The settings of `CephRBD` (`rbd/__init__.py:362-398`): `consul` if token and VM are set. -/
structure Cfg where
  pool : String
  image : String
  alwaysFull : Bool
  consul : Bool
  whole : Bool

/-- `_image_name` (`rbd/__init__.py:488-490`). -/
def Cfg.imageName (c : Cfg) : String := c.pool ++ "/" ++ c.image

/-- The argument for a snapshot (`rbd/__init__.py:425`, `450`, `517`, `525`, `537`, `574`). -/
def Cfg.snapSpec (c : Cfg) (snap : String) : String := c.imageName ++ "@" ++ snap

/-- What `ready` makes of the outcome of `exists` (`rbd/__init__.py:406-411`). -/
def isReady : Except PyErr Bool → Bool
  | .ok b => b
  | .error _ => false

/-- `CephRBD.ready` (`rbd/__init__.py:400-411`). -/
def ready (c : Cfg) : Prog Bool := (exists_ c.imageName).attempt.bind (fun r => .done (.ok (isReady r)))

/-- The loop over a listing (`rbd/__init__.py:446-448`): whether the snapshot is in it; KeyError for an entry without a name. -/
def listed (name : String) : List (Option String) → Except PyErr Bool
  | [] => .ok false
  | none :: _ => .error .key
  | some n :: rest => if n = name then .ok true else listed name rest

/-- The loop `while timeout.tick()` (`rbd/__init__.py:445-453`): the number of rounds before the timeout is up to the clock. -/
def poll (c : Cfg) (name : String) : Nat → Prog Unit
  | 0 => snapCreate (c.snapSpec name)
  | fuel + 1 =>
    (snapLs c.imageName).bind (fun l =>
      (Prog.done (listed name l)).bind (fun found => if found then .done (.ok ()) else poll c name fuel))

/-- `CephRBD.create_snapshot` (`rbd/__init__.py:423-486`): writing the request and removing requests are `work`. -/
def createSnapshot (c : Cfg) (rounds : Nat) (name : String) : Prog Unit :=
  if c.consul = false then snapCreate (c.snapSpec name)
  else work.bind (fun _ => (poll c name rounds).finally_ (work.bind (fun _ => .done (.ok ()))))

/-- The loop of `CephRBD.get_parent` (`rbd/__init__.py:497-511`); the fuel bounds the iterations (C14: it is enough). -/
def parentLoop (c : Cfg) (repo : Repo) : Nat → Rev → Prog (Option Rev)
  | 0, _ => .done (.error .diverge)
  | fuel + 1, r =>
    match repo.getParent r with
    | none => .done (.ok none)
    | some p =>
      (exists_ (c.snapSpec (snapName p.uuid))).bind (fun b =>
        if b then .done (.ok (some p)) else parentLoop c repo fuel p)

/-- `CephRBD.get_parent` (`rbd/__init__.py:493-511`). -/
def getParent (c : Cfg) (repo : Repo) (r : Rev) : Prog (Option Rev) :=
  if c.alwaysFull then .done (.ok none) else parentLoop c repo (repo.history.length + 1) r

/-- `CephRBD.diff` or `full` (`rbd/__init__.py:149-152`, `513-530`). -/
def transfer (c : Cfg) (r : Rev) : Option Rev → Prog Bool
  | some p => exportDiff c.whole (c.snapSpec (snapName r.uuid)) (snapName p.uuid) work
  | none => export_ (c.snapSpec (snapName r.uuid)) work

/-- `CephRBD.verify` (`rbd/__init__.py:532-547`). -/
def verify (c : Cfg) (r : Rev) : Prog Bool := imageReader (c.snapSpec (snapName r.uuid)) work

/-- One snapshot in the loop of `_delete_old_snapshots` (`rbd/__init__.py:564-579`): failures are logged. -/
def deleteOne (c : Cfg) (keep : Option String) (name : String) : Prog Unit :=
  if isOld keep name then (snapRm (c.snapSpec name)).attempt.bind (fun _ => .done (.ok ())) else .done (.ok ())

/-- The loop of `_delete_old_snapshots` (`rbd/__init__.py:564-579`). -/
def deleteLoop (c : Cfg) (keep : Option String) : List (Option String) → Prog Unit
  | [] => .done (.ok ())
  | none :: _ => .done (.error .key)
  | some name :: rest => (deleteOne c keep name).bind (fun _ => deleteLoop c keep rest)

/-- `CephRBD._delete_old_snapshots` (`rbd/__init__.py:549-579`). -/
def deleteOld (c : Cfg) (repo : Repo) : Prog Unit :=
  (snapLs c.imageName).bind (deleteLoop c (keepSnapshot c.alwaysFull repo))

/-- The body of `with self.ceph_rbd(revision) as source` (`rbd/__init__.py:147-156`): opening and closing the image is `work`. -/
def body (c : Cfg) (repo : Repo) (r : Rev) : Prog Bool :=
  (getParent c repo r).bind (fun parent =>
    work.bind (fun _ => ((transfer c r parent).finally_ (work.bind (fun _ => .done (.ok ())))).bind (fun _ =>
      work.bind (fun _ => verify c r))))

/-- `RBDSource.backup` (`rbd/__init__.py:130-189`): what follows the `with` block gives no `rbd` command (and may not happen, if the
exception is not caught). -/
def backup (c : Cfg) (rounds : Nat) (repo : Repo) (r : Rev) : Prog Bool :=
  (ready c).bind (fun ok =>
    if ok then
      ((createSnapshot c rounds (snapName r.uuid)).bind (fun _ => (body c repo r).finally_ (deleteOld c repo))).attempt.bind
        (fun _ => work)
    else .done (.error .runtime))

/-- One execution: the commands given, each with its answer, and the outcome. -/
inductive Runs {α : Type} : Prog α → List (List String × Ans) → Except PyErr α → Prop
  | done (r : Except PyErr α) : Runs (.done r) [] r
  | rbd (argv : List String) (k : Ans → Prog α) (a : Ans) (t : List (List String × Ans)) (r : Except PyErr α)
      (h : Runs (k a) t r) : Runs (.rbd argv k) ((argv, a) :: t) r
  | other (k : Except PyErr Bool → Prog α) (o : Except PyErr Bool) (t : List (List String × Ans)) (r : Except PyErr α)
      (h : Runs (k o) t r) : Runs (.other k) t r

end Verif.RbdCmd
