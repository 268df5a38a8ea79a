import Verif.Model.Schedule
/-!
# Specification of expiry

Independent of the order in which the code works.  A history is listed oldest first.
-/
set_option linter.dupNamespace false
namespace Verif.Repo.Spec
open Verif Verif.Repo

/-- The revisions carrying a tag, oldest first. -/
def carriers (H : List Rev) (tag : String) : List Rev := H.filter (fun r => decide (tag ∈ r.tags))

/-- `r` is one of the `k` newest revisions that carry the tag. -/
def AmongNewest (H : List Rev) (tag : String) (k : Nat) (r : Rev) : Prop :=
  r ∈ (carriers H tag).reverse.take k

/-- The tag of `r` is due for expiry: the schedule knows it, `r` is not among its `keep` newest carriers
and is older than `keep * interval`. -/
def Due (sch : Schedule) (now : String → Int) (H : List Rev) (tag : String) (r : Rev) : Prop :=
  ∃ a, (tag, a) ∈ sch ∧ ¬ AmongNewest H tag a.keep r ∧ r.ts < now tag - a.keep * a.interval

open Classical in
/-- The tags `r` has after expiry: manual tags and the schedule's tags that are not due. -/
noncomputable def keptTags (sch : Schedule) (now : String → Int) (H : List Rev) (r : Rev) : Finset String :=
  r.tags.filter (fun t => (isManual t = true ∨ t ∈ sch.keys) ∧ ¬ Due sch now H t r)

end Verif.Repo.Spec
