import Verif.Model.Daemon
/-!
# The status report: `daemon/__init__.py:332-381`, `daemon/api.py:137-143`, `325-339`, and who asks for it
(`daemon/scheduler.py:107-178`)

Iterating over a Python set gives its elements in an unspecified order: the parameter `iter`.  JSON encoding and
`datetime.fromisoformat` are the identity.  Regular expressions are modelled as far as they consist of ordinary characters
and dots (see `plain`).
-/
namespace Verif.Daemon
open Verif Verif.Repo

/-- What `status` reads of a `Job` (`daemon/scheduler.py:32-50`): its repository and schedule, the status line, the next
run, and the problem reports counted when the repository was last connected (`repository.py:88-103`). -/
structure JobView where
  repo : Repo
  sch : Schedule
  status : String
  nextTime : Option Int
  nextTags : Option (Finset String)
  reports : List String

/-- A `StatusDict` (`repository.py:26-40`); `slaOk` for `sla == "OK"`, the lists are joined with commas. -/
structure Entry where
  job : String
  slaOk : Bool
  slaOverdue : Int
  status : String
  lastTime : Option Int
  lastTags : Option (List String)
  lastDuration : Option Nat
  nextTime : Option Int
  nextTags : Option (List String)
  manualTags : Finset String
  problemReports : Nat
  unsyncedRevs : Nat
  localRevs : Nat
deriving DecidableEq

/-- `filter_manual_tags` (`revision.py:30-31`). -/
def manualTags (t : Finset String) : Finset String := t.filter (fun x => isManual x = true)

/-- The loop over the history (`daemon/__init__.py:346-349`): manual tags and the number of unsynchronised revisions. -/
def countRevs : List Rev → Finset String × Nat → Finset String × Nat
  | [], acc => acc
  | r :: rest, (tags, n) => countRevs rest (tags ∪ manualTags r.tags, if r.pending then n + 1 else n)

/-- `",".join(job.schedule.sorted_tags(job.next_tags)) if job.next_tags else None` (`daemon/__init__.py:368-372`). -/
def nextTagsOf (iter : Finset String → List String) (v : JobView) : Option (List String) :=
  match v.nextTags with
  | none => none
  | some t => if t = ∅ then none else some (v.sch.sortedTags (iter t))

/-- The entry of one job (`daemon/__init__.py:342-380`).  The clock is read for `sla` (`now1`) and again for
`sla_overdue` (`now2`). -/
def statusOf (iter : Finset String → List String) (now1 now2 : Int) (name : String) (v : JobView) : Except PyErr Entry :=
  match v.repo.scan.slaOverdue v.sch now1 with
  | .error e => .error e
  | .ok o1 =>
    match v.repo.scan.slaOverdue v.sch now2 with
    | .error e => .error e
    | .ok o2 => .ok {
        job := name
        slaOk := decide (o1 = 0)
        slaOverdue := o2
        status := v.status
        lastTime := (v.repo.scan.cleanHistory.getLast?).map Rev.ts
        lastTags := (v.repo.scan.cleanHistory.getLast?).map (fun r => v.sch.sortedTags (iter r.tags))
        lastDuration := (v.repo.scan.cleanHistory.getLast?).map (fun r => (r.stats.get? "duration").getD 0)
        nextTime := v.nextTime
        nextTags := nextTagsOf iter v
        manualTags := (countRevs v.repo.scan.cleanHistory (∅, 0)).1
        problemReports := v.reports.length
        unsyncedRevs := (countRevs v.repo.scan.cleanHistory (∅, 0)).2
        localRevs := (v.repo.scan.getHistory true true).length }

/-- `BackyDaemon.status` (`daemon/__init__.py:332-381`): one entry for each selected job; an exception for one job fails
the whole request. -/
def statusAll (iter : Finset String → List String) (now1 now2 : String → Int) (filter : String → Bool) :
    List (String × JobView) → Except PyErr (List Entry)
  | [] => .ok []
  | (name, v) :: rest =>
    if filter name = false then statusAll iter now1 now2 filter rest
    else
      match statusOf iter (now1 name) (now2 name) name v with
      | .error e => .error e
      | .ok x =>
        match statusAll iter now1 now2 filter rest with
        | .error e => .error e
        | .ok l => .ok (x :: l)

/-! ## Asking a peer -/

/-- Characters without a special meaning in a regular expression (`re`, builtin), except for the dot. -/
def plainChar (c : Char) : Bool := decide (c ∉ "\\^$*+?{}[]|()\n".toList)

/-- `name` as a regular expression consists of ordinary characters and dots. -/
def plain (name : String) : Bool := name.toList.all plainChar

/-- Matching such an expression against all of a text (`re`, builtin): a dot stands for any character but the newline. -/
def matchAll : List Char → List Char → Bool
  | [], [] => true
  | p :: ps, c :: cs => (if p = '.' then decide (c ≠ '\n') else decide (p = c)) && matchAll ps cs
  | _, _ => false

/-- `re.compile(f"^{name}$").search(text)` (`daemon/scheduler.py:112`, `167`, `daemon/api.py:140`,
`daemon/__init__.py:340`): `$` also matches before a newline at the end. -/
def searchName (name text : String) : Bool :=
  matchAll name.toList text.toList ||
    (decide (text.toList.getLast? = some '\n') && matchAll name.toList text.toList.dropLast)

/-- The part of an entry that `_wait_for_leader` uses. -/
def Entry.toStatus (x : Entry) : Status := ⟨x.localRevs, x.lastTime, x.status, x.nextTime⟩

/-- What `fetch_status(f"^{name}$")` (`daemon/api.py:325-339`) gives when the peer is reached and has these jobs: an
exception of the peer is an error status, raised by the client. -/
def answerOf (iter : Finset String → List String) (now1 now2 : String → Int) (name : String) (jobs : List (String × JobView)) :
    Answer :=
  match statusAll iter now1 now2 (searchName name) jobs with
  | .error _ => .error .client
  | .ok l => .ok (l.map Entry.toStatus)

end Verif.Daemon
