import Verif.Model.TraverseFlow
import Verif.Model.Reaching

/-! Whether a variable is changed between locations, `edulint/linting/analyses/data_dependency.py:632-640`. -/

namespace Verif.Traverse

open Verif.Cfg (Event Item)

/-- `any(event.type != VarEventType.READ for event in loc.var_events[var])`, with the events of the location only,
`edulint/linting/analyses/data_dependency.py:637-639`; `items` has what happens at each location. -/
def changes (g : Flow.Graph) (items : Nat → List Item) (v : Nat) (x : Loc) : Bool :=
  match locAt g x with
  | some l => (items l).any fun
    | .own e => e.var == v && e.type != .read
    | .called _ => false
  | none => false

/-- `is_changed_between`, `edulint/linting/analyses/data_dependency.py:632-640` -/
inductive IsChanged (g : Flow.Graph) (items : Nat → List Item) (v : Nat) (before : Loc) : List Loc → Bool → Prop
  | nil : IsChanged g items v before [] false
  | here {after afters locs} : Locs (ofFlow g) ⟨.predecessors, fun x => x == before, true, false⟩ [after] locs →
      locs.any (changes g items v) = true → IsChanged g items v before (after :: afters) true
  | next {after afters locs r} : Locs (ofFlow g) ⟨.predecessors, fun x => x == before, true, false⟩ [after] locs →
      locs.any (changes g items v) = false → IsChanged g items v before afters r → IsChanged g items v before (after :: afters) r

end Verif.Traverse
