import Verif.Model.Schedule
/-!
# A job over time: passes of `run_forever` that make a backup (`daemon/scheduler.py:197-266`)

The planning, the cleaning and the expiry are the functions of `Model/Repo.lean` and `Model/Schedule.lean`, each working on what the
one before left in the directory.  What a successful backup does to the directory is a relation; `Props/Timeline.lean` shows that
the backups of `Model/Backup.lean` satisfy it.  Revisions of other servers are not pulled or pushed.  When things happen is a
parameter.
-/
set_option linter.dupNamespace false
namespace Verif.Timeline
open Verif Verif.Repo

/-- What the environment decides in one pass: the clock readings `plan` (`daemon/scheduler.py:211`), `nowM`, `now1`, `now2`
(`schedule.py:110`, `90`, `91`), the creation of the revision `start` (`daemon/scheduler.py:291`, `revision.py:57`), the end of the
backup `done` (`daemon/scheduler.py:259`), the clock during expiry (`schedule.py:136`), the uuid of the revision, the dates in
revision expressions. -/
structure Pass where
  plan : Int
  nowM : Int
  now1 : Int
  now2 : Int
  start : Int
  done : Int
  expiry : String → Int
  uuid : String
  pd : String → Option Int

/-- `Repository.connect` (`repository.py:80-84`, `daemon/scheduler.py:208`): the object has read the directory. -/
def connected (files : Dict String RevFile) : Repo := (⟨files, [], []⟩ : Repo).scan

/-- The next run (`daemon/scheduler.py:210-212`); there were no errors. -/
def Pass.planned (p : Pass) (sch : Schedule) (spread : Int) (files : Dict String RevFile) : Except PyErr (Int × Finset String) :=
  sch.next p.plan spread (connected files) p.nowM p.now1 p.now2

/-- `scan` and `_clean` after the backup (`daemon/scheduler.py:260-261`). -/
def cleaned (files : Dict String RevFile) : Dict String RevFile := (connected files).clean.files

/-- `run_expiry` (`daemon/scheduler.py:263`). -/
def Pass.expired (p : Pass) (sch : Schedule) (files : Dict String RevFile) : Dict String RevFile :=
  (sch.expire p.pd p.expiry (connected files)).2.files

end Verif.Timeline
