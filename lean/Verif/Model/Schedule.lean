import Verif.Model.RevSpec
import Verif.Model.Sort
import Verif.Model.Float
/-!
# Schedules: `schedule.py`, and `last_by_tag`, `sla_overdue` of `repository.py`

Durations and dates are exact numbers of microseconds (dates since `datetime.min`); `next_in_interval` computes in
floating point (`Model/Float.lean`).
-/
set_option linter.dupNamespace false
namespace Verif.Repo
open Verif

/-- `MINUTE`, `HOUR`, `DAY`, `WEEK` (`schedule.py:12-15`). -/
def MINUTE : Int := 60
/-- `schedule.py:13`. -/
def HOUR : Int := 60 * MINUTE
/-- `schedule.py:14`. -/
def DAY : Int := 24 * HOUR
/-- `schedule.py:15`. -/
def WEEK : Int := 7 * DAY

/-- `int(s)` (builtin): surrounding whitespace is ignored. -/
def pyIntStr (l : List Char) : Except PyErr Int :=
  match pyInt (strip l) with
  | none => .error .value
  | some n => .ok n

/-- `timedelta(seconds=...)` (builtin). -/
def seconds (n : Int) : Int := n * 1000000

/-- One branch of `parse_duration`: remove *all* occurrences of the suffix letter
(`schedule.py:20`, `23`, `26`, `29`, `32`) and multiply. -/
def parseSuffix (l : List Char) (c : Char) (unit : Int) : Except PyErr Int :=
  match pyIntStr (l.filter (fun x => decide (x ≠ c))) with
  | .error e => .error e
  | .ok n => .ok (seconds (n * unit))

/-- `parse_duration` (`schedule.py:18-36`). -/
def parseDuration (s : String) : Except PyErr Int :=
  let l := s.toList
  if l.getLast? = some 'w' then parseSuffix l 'w' WEEK
  else if l.getLast? = some 'd' then parseSuffix l 'd' DAY
  else if l.getLast? = some 'h' then parseSuffix l 'h' HOUR
  else if l.getLast? = some 'm' then parseSuffix l 'm' MINUTE
  else if l.getLast? = some 's' then parseSuffix l 's' 1
  else match pyIntStr l with
    | .error e => .error e
    | .ok n => .ok (seconds n)

/-- `next_in_interval` (`schedule.py:39-52`): `relative` and `interval` in microseconds, `spread` in seconds; the interval is not
zero (see `Schedule.nextIdeal`).  `timedelta(seconds=next)` is taken to round the exact number of microseconds, which it does for whole seconds. -/
def nextInInterval (relative interval spread : Int) : Int :=
  let rel := Flt.rnd ((relative : ℚ) / 1000000)
  let int := Flt.rnd ((interval : ℚ) / 1000000)
  let spread := Flt.fmod spread int
  let rel := Flt.rnd (rel - spread)
  let current := Flt.toInt (Flt.rnd (rel / int))
  let next := Flt.rnd (Flt.rnd ((current + 1 : ℚ) * int) + spread)
  Flt.roundEven (next * 1000000)

/-- One entry of `Schedule.schedule` (`schedule.py:63-67`). -/
structure TagSpec where
  interval : Int
  keep : Nat
deriving DecidableEq, Repr

/-- `Schedule.schedule` (`schedule.py:56`). -/
abbrev Schedule := Dict String TagSpec

/-- `Schedule._next_ideal` (`schedule.py:95-106`): the smallest next time and the tags due then.  An interval of zero is a
ZeroDivisionError (`schedule.py:44`). -/
def Schedule.nextIdeal (sch : Schedule) (relative spread : Int) : Except PyErr (Int × Finset String) :=
  if sch.any (fun e => decide (e.2.interval = 0)) then .error .unexpected else
  let times := sch.map (fun e => (nextInInterval relative e.2.interval spread, e.1))
  match (times.map Prod.fst).min? with
  | none => .error .value
  | some t => .ok (t, ((times.filter (fun e => decide (e.1 = t))).map Prod.snd).toFinset)

/-- `Repository.last_by_tag` for one tag (`repository.py:358-370`). -/
def lastByTag (clean : List Rev) (tag : String) : Option Int :=
  clean.foldl (fun acc r => if tag ∈ r.tags then some (max (acc.getD 0) r.ts) else acc) none

/-- `Schedule._missed` (`schedule.py:108-119`). -/
def Schedule.missed (sch : Schedule) (s : Repo) (now : Int) : Finset String :=
  ((sch.filter (fun e => match lastByTag s.cleanHistory e.1 with
    | none => true
    | some last => decide (¬ last > now - e.2.interval))).map Prod.fst).toFinset

/-- `Schedule.next` (`schedule.py:78-93`).  `nowM`, `now1`, `now2` are the results of the three calls of
`now()` in lines 110, 90 and 91. -/
def Schedule.next (sch : Schedule) (relative spread : Int) (s : Repo) (nowM now1 now2 : Int) :
    Except PyErr (Int × Finset String) :=
  match sch.nextIdeal relative spread with
  | .error e => .error e
  | .ok (idealTime, idealTags) =>
    let missed := sch.missed s nowM
    let tags := idealTags ∪ missed
    if missed ≠ ∅ ∧ s.history ≠ [] then
      if idealTime > now1 + seconds (5 * 60) then .ok (now2, missed) else .ok (idealTime, tags)
    else .ok (idealTime, tags)

/-- `Repository.sla_overdue` (`repository.py:116-125`): `age > max_age * 1.5`. -/
def Repo.slaOverdue (s : Repo) (sch : Schedule) (now : Int) : Except PyErr Int :=
  match s.cleanHistory.getLast? with
  | none => .ok 0
  | some r =>
    let age := now - r.ts
    match (sch.map (fun e => e.2.interval)).min? with
    | none => .error .value
    | some maxAge => if 2 * age > 3 * maxAge then .ok age else .ok 0

/-- The inner loop of phase 1 of `Schedule.expire` (`schedule.py:138-142`).  `set.remove` fails with KeyError for a
revision without the tag: a tag with a separator in its name selects such revisions in line 132. -/
def expireRevs (tag : String) (threshold : Int) : List Rev → Repo → Except PyErr Unit × Repo
  | [], s => (.ok (), s)
  | r :: old, s =>
    if r.ts ≥ threshold then expireRevs tag threshold old s
    else if tag ∉ r.tags then (.error .key, s)
    else expireRevs tag threshold old (s.store { r with tags := r.tags.erase tag })

/-- `revisions[:-keep]` (builtin); `[:-0]` is empty. -/
def dropNewest (keep : Nat) (l : List Rev) : List Rev :=
  if keep = 0 then [] else l.take (l.length - keep)

/-- Phase 1 of `Schedule.expire` for one tag (`schedule.py:132-142`). -/
def expireTag (pd : String → Option Int) (now : Int) (tag : String) (a : TagSpec) (s : Repo) :
    Except PyErr Unit × Repo :=
  match findRevisions ⟨s.history, pd⟩ ("tag:" ++ tag) with
  | .error e => (.error e, s)
  | .ok revs =>
    if revs.length < a.keep then (.ok (), s)
    else expireRevs tag (now - a.keep * a.interval) (dropNewest a.keep revs) s

/-- Phase 1 of `Schedule.expire` (`schedule.py:131-142`).  `now` may differ from tag to tag. -/
def expirePhase1 (pd : String → Option Int) (now : String → Int) :
    List (String × TagSpec) → Repo → Except PyErr Unit × Repo
  | [], s => (.ok (), s)
  | (tag, a) :: rest, s =>
    match expireTag pd (now tag) tag a s with
    | (.error e, s) => (.error e, s)
    | (.ok (), s) => expirePhase1 pd now rest s

/-- Tags created by a former schedule (`schedule.py:146-148`). -/
def expiredTags (sch : Schedule) (tags : Finset String) : Finset String :=
  (scheduleTags tags).filter (fun t => t ∉ sch.keys)

/-- Phase 2 of `Schedule.expire` (`schedule.py:144-151`). -/
def expirePhase2 (sch : Schedule) (s : Repo) : Repo :=
  s.history.foldl (fun s r =>
    if expiredTags sch r.tags ≠ ∅ then s.store { r with tags := r.tags \ expiredTags sch r.tags }
    else s) s

/-- Phase 3 of `Schedule.expire` (`schedule.py:153-162`). -/
def expirePhase3 (s : Repo) : List Rev × Repo :=
  let empty := s.history.filter (fun r => decide (r.tags = ∅))
  (empty, empty.foldl (fun s r => s.remove r) s)

/-- `Schedule.expire` (`schedule.py:121-162`). -/
def Schedule.expire (sch : Schedule) (pd : String → Option Int) (now : String → Int) (s : Repo) :
    Except PyErr (List Rev) × Repo :=
  match expirePhase1 pd now sch s.scan with
  | (.error e, s) => (.error e, s)
  | (.ok (), s) =>
    let r := expirePhase3 (expirePhase2 sch s)
    (.ok r.1, r.2)

/-- `Schedule.sorted_tags` (`schedule.py:164-172`): unknown tags sort like interval 0. -/
def Schedule.sortedTags (sch : Schedule) (tags : List String) : List String :=
  sortBy (fun a b =>
    decide (((sch.get? a).map TagSpec.interval).getD 0 ≤ ((sch.get? b).map TagSpec.interval).getD 0)) tags

end Verif.Repo
