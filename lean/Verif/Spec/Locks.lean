import Verif.Model.Locks
/-! # Specification: who works on a repository at the same time -/
namespace Verif.Locks

/-- `p` is executing the body of `op`, called with its locks or with `skip_lock=True`. -/
def Inside {D : Type} (s : State D) (p : Nat) (op : Op) : Prop :=
  ∃ o inner, s.at_ p = .running o inner ∧ (op = o ∨ op ∈ inner)

/-- Functions that change revision metadata on behalf of backups and users. -/
def Op.editsMetadata : Op → Bool
  | .backup | .clean | .rm | .expire | .tags | .distrust => true
  | _ => false

/-- Functions that read or write image data. -/
def Op.touchesData : Op → Bool
  | .backup | .verify | .gc | .restore => true
  | _ => false

/-- A sequence of steps. -/
inductive Path {D : Type} : State D → State D → Prop
  | nil (s : State D) : Path s s
  | cons {a b c : State D} (h : Path a b) (h' : Step b c) : Path a c

end Verif.Locks
