import Verif.Model.Background
import Verif.Model.Status
import Verif.Model.Sort
/-!
# `backy show-jobs` and `backy show-daemon`: `cli/__init__.py:382-452`

Layout and the formatting of times and durations are left out: a row holds the values.  `compile` is `re.compile` with `search` (builtin).  The daemon is
asked three times; it may change in between.
-/
namespace Verif.Show
open Verif Verif.Repo Verif.Commands Verif.Daemon Verif.Background

/-- `get_status` (`daemon/api.py:137-143`) for the query `filter=<pattern>`: an empty pattern selects all jobs; an exception of the daemon is an error status,
raised by the client. -/
def statusAnswer (iter : Finset String → List String) (now1 now2 : String → Int) (compile : String → Except PyErr (String → Bool))
    (views : List (String × JobView)) (pattern : String) : Except PyErr (List Entry) :=
  match (if pattern = "" then .ok (fun _ => true) else compile pattern) with
  | .error _ => .error .client
  | .ok m =>
    match statusAll iter now1 now2 m views with
    | .error _ => .error .client
    | .ok l => .ok l

/-- `fetch_status(self.jobs)` (`cli/__init__.py:400`, `daemon/api.py:325-339`).  `params={"filter": None}` raises TypeError
(yarl: query values are strings or numbers). -/
def fetchStatus (ask : String → Except PyErr (List Entry)) : Option String → Except PyErr (List Entry)
  | none => .error .type
  | some p => ask p

/-- A row of the table (`cli/__init__.py:418-428`, `433`). -/
inductive Row
  | live (e : Entry)
  | dead (name : String)
deriving DecidableEq

/-- `jobs.sort(key=lambda j: j["job"])` (`cli/__init__.py:401`). -/
def byName (a b : Entry) : Bool := decide (a.job ≤ b.job)

/-- `if self.jobs: backups = list(filter(re.compile(self.jobs).search, backups))` (`cli/__init__.py:430-431`). -/
def filterDead (compile : String → Except PyErr (String → Bool)) (pattern : Option String) (dead : List String) : Except PyErr (List String) :=
  match pattern with
  | none => .ok dead
  | some p =>
    if p = "" then .ok dead
    else
      match compile p with
      | .error e => .error e
      | .ok m => .ok (dead.filter m)

/-- What `show_jobs` prints (`cli/__init__.py:382-436`) for the repositories with these names: the rows and the number of jobs. -/
def showJobs (compile : String → Except PyErr (String → Bool)) (pattern : Option String) (names : List String)
    (ask : String → Except PyErr (List Entry)) (dead : Except PyErr (List String)) : Except PyErr (List Row × Nat) :=
  match fetchStatus ask pattern with
  | .error e => .error e
  | .ok jobs =>
    match dead with
    | .error e => .error e
    | .ok dead =>
      match filterDead compile pattern dead with
      | .error e => .error e
      | .ok dead =>
        .ok (((sortBy byName jobs).filter (fun e => decide (e.job ∈ names))).map Row.live ++ dead.map Row.dead,
          (sortBy byName jobs).length + dead.length)

/-- `get_repos` (`cli/__init__.py:138-157`): the names of the repositories.  `own` is the repository of the current directory. -/
def repoNames (own : Except PyErr String) (compile : String → Except PyErr (String → Bool)) (pattern : Option String)
    (answer : Except PyErr (List JobRef)) : Except PyErr (List String) :=
  match pattern with
  | none =>
    match own with
    | .error e => .error e
    | .ok n => .ok [n]
  | some p =>
    match getRepos answer (compile p) with
    | .error e => .error e
    | .ok l => .ok (l.map (fun j => pathName j.path))

/-- `backy [--jobs <regex>] show-jobs` (`cli/__init__.py:89-125`, `382-436`): the exit code and what is printed. -/
def mainShowJobs (own : Except PyErr String) (compile : String → Except PyErr (String → Bool)) (pattern : Option String)
    (answer : Except PyErr (List JobRef)) (ask : String → Except PyErr (List Entry)) (dead : Except PyErr (List String)) :
    Nat × Option (List Row × Nat) :=
  match repoNames own compile pattern answer with
  | .error _ => (1, none)
  | .ok names =>
    match showJobs compile pattern names ask dead with
    | .error _ => (1, none)
    | .ok r => (0, some r)

/-- `state_summary.setdefault(...)`, `state_summary[...] += 1` (`cli/__init__.py:444-446`). -/
def summary : List String → Dict String Nat → Dict String Nat
  | [], d => d
  | s :: rest, d => summary rest (d.set s ((d.get? s).getD 0 + 1))

/-- `sorted(state_summary)` with the numbers (`cli/__init__.py:448-449`). -/
def summaryRows (d : Dict String Nat) : List (String × Nat) :=
  (sortBy (fun a b : String => decide (a ≤ b)) d.keys).map (fun s => (s, (d.get? s).getD 0))

/-- `backy show-daemon` (`cli/__init__.py:112-121`, `438-450`): the exit code and the table; `jobs` are the status lines of the jobs. -/
def mainShowDaemon (pattern : Option String) (jobs : Except PyErr (List String)) (dead : Except PyErr (List String)) :
    Nat × Option (List (String × Nat)) :=
  if pattern ≠ none then (1, none)
  else
    match jobs with
    | .error _ => (1, none)
    | .ok jobs =>
      match dead with
      | .error _ => (1, none)
      | .ok dead => (0, some (summaryRows (summary (jobs ++ dead.map (fun _ => "Dead")) [])))

end Verif.Show
