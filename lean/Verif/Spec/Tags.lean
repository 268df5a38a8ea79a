import Verif.Model.Repo
/-!
# Specification of tag changes
-/
set_option linter.dupNamespace false
namespace Verif.Repo.Spec
open Verif Verif.Repo

/-- The three ways to change tags. -/
inductive Action | set | add | remove
deriving DecidableEq

/-- How an action is written on the command line. -/
def Action.name : Action → String
  | .set => "set"
  | .add => "add"
  | .remove => "remove"

/-- The tags a revision has after the change. -/
def Action.result : Action → (old tags : Finset String) → Finset String
  | .set, _, tags => tags
  | .add, old, tags => old ∪ tags
  | .remove, old, tags => old \ tags

/-- The metadata of a selected revision after the change: with `autoremove`, a local revision left without
tags is removed. -/
def changed (a : Action) (tags : Finset String) (autoremove : Bool) (r : Rev) : Option Rev :=
  if a.result r.tags tags = ∅ ∧ autoremove = true ∧ r.server = "" then none
  else some { r with tags := a.result r.tags tags }

end Verif.Repo.Spec
