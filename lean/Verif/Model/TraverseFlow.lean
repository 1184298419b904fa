import Verif.Model.Traverse
import Verif.Model.FlowUse

/-! Traversals of the control flow graphs that are built for programs. -/

namespace Verif.Traverse

/-- The graph as a traversal sees it: `block.successors`, `block.predecessors` and `len(block.locs)`. -/
def ofFlow (g : Flow.Graph) : Graph where
  succ := g.succs
  pred b := (g.edges.filter (fun e => e.2 == b)).map (·.1)
  len b := (g.locs b).length

/-- `block.locs[pos]` -/
def locAt (g : Flow.Graph) (x : Loc) : Option Nat := (g.locs x.1)[x.2]?

/-- A condition on locations -/
def onLoc (g : Flow.Graph) (stop : Nat → Bool) (x : Loc) : Bool :=
  match locAt g x with
  | some l => stop l
  | none => false

end Verif.Traverse
