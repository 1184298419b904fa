import Verif.Model.Inside
import Verif.Model.Reaching

/-! Whether variables are modified in statements, `edulint/linting/analyses/data_dependency.py:660-686` and `831-836`. -/

namespace Verif.Inside

open Verif.Flow (Body)
open Verif.Traverse (Loc locAt)
open Verif.Cfg (Event EventType)

/-- `event.type in MODIFYING_EVENTS`, `edulint/linting/analyses/data_dependency.py:27`. -/
def modifying : EventType → Bool
  | .assign | .reassign | .modify => true
  | _ => false

/-- `get_events_for(vars, nodes, MODIFYING_EVENTS)` yields something at the location,
`edulint/linting/analyses/data_dependency.py:680-686`. `events` has what happens to variables at each location, and in functions
that are defined there; all of it is in `nodes`, so that it makes no difference whether that is checked (682-685). -/
def modifies (g : Flow.Graph) (events : Nat → List Event) (vars : List Nat) (x : Loc) : Bool :=
  match locAt g x with
  | some l => (events l).any fun e => vars.contains e.var && modifying e.type
  | none => false

/-- `modified_in` of statements, `edulint/linting/analyses/data_dependency.py:831-836`. -/
def ModifiedIn (g : Flow.Graph) (events : Nat → List Event) (vars : List Nat) (b : Body) (r : Bool) : Prop :=
  match b with
  | .nil => r = false
  | b => ∃ locs, Inside g b locs ∧ r = locs.any (modifies g events vars)

end Verif.Inside
