import Verif.Model.Schedule
/-!
# Changing tags: `repository.py:262-275` and `repository.py:314-346`
-/
set_option linter.dupNamespace false
namespace Verif.Repo
open Verif

/-- `Repository.validate_tags` (`repository.py:262-275`). -/
def validateTags (sch : Schedule) (tags : Finset String) : Except PyErr Unit :=
  if (scheduleTags tags).filter (fun t => t ∉ sch.keys) = ∅ then .ok () else .error .runtime

/-- The `match action` of `repository.py:332-340`. -/
def actTags (action : String) (old tags : Finset String) : Except PyErr (Finset String) :=
  if action = "set" then .ok tags
  else if action = "add" then .ok (old ∪ tags)
  else if action = "remove" then .ok (old \ tags)
  else .error .value

/-- The second loop of `Repository.tags` (`repository.py:331-345`). -/
def tagsLoop (action : String) (tags : Finset String) (autoremove : Bool) : List Rev → Repo → Except PyErr Bool × Repo
  | [], s => (.ok true, s)
  | r :: rest, s =>
    match actTags action r.tags tags with
    | .error e => (.error e, s)
    | .ok t =>
      if t = ∅ ∧ autoremove = true then
        tagsLoop action tags autoremove rest ((s.assign { r with tags := t }).remove { r with tags := t })
      else
        tagsLoop action tags autoremove rest (s.store { r with tags := t })

/-- `Repository.tags` (`repository.py:314-346`) without the lock. -/
def Repo.tagsOp (s : Repo) (sch : Schedule) (pd : String → Option Int) (action spec : String) (tags : Finset String)
    (expect : Option (Finset String)) (autoremove force : Bool) : Except PyErr Bool × Repo :=
  let s := s.scan
  match findRevisions ⟨s.history, pd⟩ spec with
  | .error e => (.error e, s)
  | .ok revs =>
    match (if force = false ∧ action ≠ "remove" then validateTags sch tags else .ok ()) with
    | .error e => (.error e, s)
    | .ok _ =>
      if revs.any (fun r => match expect with
        | none => false
        | some t => decide (t ≠ r.tags)) then (.ok false, s)
      else tagsLoop action tags autoremove revs s

end Verif.Repo
