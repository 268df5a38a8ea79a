import Verif.Model.FullDisk
import Verif.Model.Tags
/-!
# Commands that change metadata on a disk that may be full

Expiry, `backy rm`, `backy tags` and `backy gc` as in `Model/Schedule.lean`, `Model/Tags.lean` and `Model/Files.lean`, but every call of
`write_info` may fail: `d n` says what happens to the `n`-th one.  `SafeFile` renames the temporary file only after it has been written
and synced (`utils.py:115-139`), so a failing write leaves the old file; the attributes of the object in memory have changed already.
Removing files does not fail.
-/
namespace Verif.FullDisk
open Verif Verif.Repo Verif.Backup

/-- The result of a function that has made `n` writes so far (no line of its own). -/
abbrev Out := Except PyErr Unit × Nat × Repo

/-- An attribute is changed and the metadata written, the pattern `r.tags = ...; r.write_info()` (`revision.py:107-112`). -/
def put (d : Drive) (n : Nat) (r : Rev) (s : Repo) : Out :=
  if d n = .done then (.ok (), n + 1, s.store r) else (.error .os, n + 1, s.assign r)

/-- `Revision.remove` (`revision.py:143-157`). -/
def remove (d : Drive) (n : Nat) (r : Rev) (s : Repo) : Out :=
  if r.server ≠ "" then put d n { r with tags := ∅ } s else (.ok (), n, s.drop r)

/-- `Repository.rm` without the lock, and phase 3 of expiry (`repository.py:305-308`, `schedule.py:156-160`). -/
def removeAll (d : Drive) : List Rev → Nat → Repo → Out
  | [], n, s => (.ok (), n, s)
  | r :: rest, n, s =>
    match remove d n r s with
    | (.error e, n, s) => (.error e, n, s)
    | (.ok (), n, s) => removeAll d rest n s

/-- The inner loop of phase 1 of `Schedule.expire` (`schedule.py:138-142`). -/
def expireRevs (d : Drive) (tag : String) (threshold : Int) : List Rev → Nat → Repo → Out
  | [], n, s => (.ok (), n, s)
  | r :: old, n, s =>
    if r.ts ≥ threshold then expireRevs d tag threshold old n s
    else if tag ∉ r.tags then (.error .key, n, s)
    else
      match put d n { r with tags := r.tags.erase tag } s with
      | (.error e, n, s) => (.error e, n, s)
      | (.ok (), n, s) => expireRevs d tag threshold old n s

/-- Phase 1 for one tag (`schedule.py:132-142`). -/
def expireTag (d : Drive) (pd : String → Option Int) (now : Int) (tag : String) (a : TagSpec) (n : Nat) (s : Repo) : Out :=
  match findRevisions ⟨s.history, pd⟩ ("tag:" ++ tag) with
  | .error e => (.error e, n, s)
  | .ok revs =>
    if revs.length < a.keep then (.ok (), n, s)
    else expireRevs d tag (now - a.keep * a.interval) (dropNewest a.keep revs) n s

/-- Phase 1 (`schedule.py:131-142`). -/
def expirePhase1 (d : Drive) (pd : String → Option Int) (now : String → Int) : List (String × TagSpec) → Nat → Repo → Out
  | [], n, s => (.ok (), n, s)
  | (tag, a) :: rest, n, s =>
    match expireTag d pd (now tag) tag a n s with
    | (.error e, n, s) => (.error e, n, s)
    | (.ok (), n, s) => expirePhase1 d pd now rest n s

/-- Phase 2 (`schedule.py:144-151`). -/
def expirePhase2 (d : Drive) (sch : Schedule) : List Rev → Nat → Repo → Out
  | [], n, s => (.ok (), n, s)
  | r :: rest, n, s =>
    if expiredTags sch r.tags ≠ ∅ then
      match put d n { r with tags := r.tags \ expiredTags sch r.tags } s with
      | (.error e, n, s) => (.error e, n, s)
      | (.ok (), n, s) => expirePhase2 d sch rest n s
    else expirePhase2 d sch rest n s

/-- Phase 3 (`schedule.py:153-162`). -/
def expirePhase3 (d : Drive) (n : Nat) (s : Repo) : Out := removeAll d (s.history.filter (fun r => decide (r.tags = ∅))) n s

/-- `Schedule.expire` (`schedule.py:121-162`), without the list it returns. -/
def expire (d : Drive) (sch : Schedule) (pd : String → Option Int) (now : String → Int) (s : Repo) : Except PyErr Unit × Repo :=
  match expirePhase1 d pd now sch 0 s.scan with
  | (.error e, _, s) => (.error e, s)
  | (.ok (), n, s) =>
    match expirePhase2 d sch s.history n s with
    | (.error e, _, s) => (.error e, s)
    | (.ok (), n, s) => ((expirePhase3 d n s).1, (expirePhase3 d n s).2.2)

/-- `Repository.rm` (`repository.py:305-308`). -/
def rm (d : Drive) (revs : List Rev) (s : Repo) : Except PyErr Unit × Repo := ((removeAll d revs 0 s).1, (removeAll d revs 0 s).2.2)

/-- The loop of `Repository.tags` (`repository.py:332-345`). -/
def tagsLoop (d : Drive) (action : String) (tags : Finset String) (autoremove : Bool) : List Rev → Nat → Repo → Out
  | [], n, s => (.ok (), n, s)
  | r :: rest, n, s =>
    match actTags action r.tags tags with
    | .error e => (.error e, n, s)
    | .ok t =>
      match (if t = ∅ ∧ autoremove = true then remove d n { r with tags := t } (s.assign { r with tags := t })
          else put d n { r with tags := t } s) with
      | (.error e, n, s) => (.error e, n, s)
      | (.ok (), n, s) => tagsLoop d action tags autoremove rest n s

/-- `Repository.tags` (`repository.py:314-346`) without the lock. -/
def tagsOp (d : Drive) (s : Repo) (sch : Schedule) (pd : String → Option Int) (action spec : String) (tags : Finset String)
    (expect : Option (Finset String)) (autoremove force : Bool) : Except PyErr Bool × Repo :=
  let s := s.scan
  match findRevisions ⟨s.history, pd⟩ spec with
  | .error e => (.error e, s)
  | .ok revs =>
    match (if force = false ∧ action ≠ "remove" then validateTags sch tags else .ok ()) with
    | .error e => (.error e, s)
    | .ok _ =>
      if revs.any (fun r => match expect with
        | none => false
        | some t => decide (t ≠ r.tags)) then (.ok false, s)
      else
        match tagsLoop d action tags autoremove revs 0 s with
        | (.error e, _, s) => (.error e, s)
        | (.ok (), _, s) => (.ok true, s)

end Verif.FullDisk
