import Verif.Model.Inside
import Verif.Model.Reaching
import Verif.Model.FlowUse

/-!
Variables whose values come from before statements, or are used after them,
`edulint/linting/analyses/data_dependency.py:849-900`, and how graphs of a file are put together.
-/

namespace Verif.Uses

open Verif.Flow (Body)
open Verif.Traverse (Loc locAt)
open Verif.Inside (Inside)
open Verif.Cfg (Event Item Prog)

/-! ### Files -/

/-- A file with statements: its functions, each with the location of the arguments, and the statements of the module. -/
structure File where
  functions : List (Nat × Body)
  body : Body

/-- Their graphs, in the order of `edulint/linting/analyses/data_dependency.py:423`. -/
def File.graphs (F : File) : List Flow.Graph := F.functions.map (fun f => Flow.functionGraph f.1 f.2) ++ [Flow.moduleGraph F.body]

/-- The graph with the given position. -/
def File.graph (F : File) (i : Nat) : Flow.Graph := F.graphs[i]?.getD Flow.Graph.init

/-- The number of a block of a graph in the file: no two blocks have the same. -/
def File.num (F : File) (i b : Nat) : Nat := b * F.graphs.length + i

/-- Which graph a block is of. -/
def File.which (F : File) (n : Nat) : Nat := n % F.graphs.length

/-- Which block of it. -/
def File.block (F : File) (n : Nat) : Nat := n / F.graphs.length

/-- The graphs of the file together; `items` has what happens to variables at each location, and there are `vars` variables. -/
def File.prog (F : File) (items : Nat → List Item) (vars : Nat) : Prog where
  nodes := (List.range F.graphs.length).flatMap fun i => (List.range (F.graph i).count).map (F.num i)
  succ n := ((F.graph (F.which n)).succs (F.block n)).map (F.num (F.which n))
  locs n := ((F.graph (F.which n)).locs (F.block n)).map items
  vars := vars

/-- The blocks that the loops start from, `edulint/linting/analyses/data_dependency.py:423`. -/
def File.starts (F : File) : List Nat := (List.range F.graphs.length).map fun i => F.num i (F.graph i).start

/-- `block.reachable`, `edulint/linting/analyses/cfg/graph.py:153-157` -/
def File.reachable (F : File) (n : Nat) : Bool := decide (F.block n ∈ (F.graph (F.which n)).blocks)

/-- All locations of the file. -/
def File.locations (F : File) : List Nat := F.functions.flatMap (fun f => f.1 :: f.2.locations) ++ F.body.locations

/-- The definitions of events that `collect_reaching_definitions` finds in the file are these pairs. If the module has no
statements, it does nothing, `edulint/linting/analyses/data_dependency.py:413-414`. -/
def File.Definitions (F : File) (items : Nat → List Item) (vars : Nat) (definitions : List (Event × Event)) : Prop :=
  (F.body.isNil = true ∧ definitions = []) ∨
  (F.body.isNil = false ∧ ∃ phases, Cfg.Phases (F.prog items vars) F.reachable 0 F.starts phases ∧
    definitions = (Cfg.links (F.prog items vars) phases).1)

/-! ### Uses and definitions -/

/-- `event.uses`: they are added together with the definitions, `edulint/linting/analyses/data_dependency.py:228`, `249` and `352`. -/
def usesOf (definitions : List (Event × Event)) (d : Event) : List Event := (definitions.filter (·.2 == d)).map (·.1)

/-- `event.definitions` -/
def definitionsOf (definitions : List (Event × Event)) (e : Event) : List Event := (definitions.filter (·.1 == e)).map (·.2)

/-- `loc.var_events.all()`, without the variables. -/
def ownEvents : List Item → List Event
  | [] => []
  | .own e :: its => e :: ownEvents its
  | .called _ :: its => ownEvents its

/-- The locations, for their positions in the graph. -/
def labels (g : Flow.Graph) (locs : List Loc) : List Nat := locs.filterMap (locAt g)

/-- `get_vars_used_after` of statements, `edulint/linting/analyses/data_dependency.py:877-900`: each variable with each of the nodes
that use it. `home` is `get_cfg_loc`; all statements have a location, so `check_parents` is false. -/
def UsedAfter (g : Flow.Graph) (items : Nat → List Item) (definitions : List (Event × Event)) (home : Nat → Nat) (b : Body)
    (result : List (Nat × Nat)) : Prop :=
  ∃ locs, Inside g b locs ∧ result = (labels g locs).flatMap fun l => (ownEvents (items l)).flatMap fun d =>
    ((usesOf definitions d).filter fun e => e.type != .assign && e.type != .reassign && !(labels g locs).contains (home e.node)).map
      fun e => (d.var, e.node)

/-- `get_vars_defined_before` of statements, `edulint/linting/analyses/data_dependency.py:849-864`: each variable with each of the
nodes that define it. -/
def DefinedBefore (g : Flow.Graph) (items : Nat → List Item) (definitions : List (Event × Event)) (home : Nat → Nat) (b : Body)
    (result : List (Nat × Nat)) : Prop :=
  ∃ locs, Inside g b locs ∧ result = (labels g locs).flatMap fun l => (ownEvents (items l)).flatMap fun e =>
    ((definitionsOf definitions e).filter fun d => !(labels g locs).contains (home d.node)).map fun d => (e.var, d.node)

/-! ### What happens in executions -/

/-- What happens to variables when locations are executed in turn, and where. -/
def happens (items : Nat → List Item) (tr : List Nat) : List (Nat × Item) := tr.flatMap fun l => (items l).map fun it => (l, it)

/-- When the locations are executed in turn, `d` at `x` gives the variable `v` a value or deletes it, and then `e` at `y` reads it,
or modifies it, before anything else has changed it. -/
def Gives (items : Nat → List Item) (tr : List Nat) (v : Nat) (d : Event) (x : Nat) (e : Event) (y : Nat) : Prop :=
  d.var = v ∧ d.type ≠ .read ∧ e.var = v ∧ (e.type = .read ∨ e.type = .modify) ∧
    ∃ before between after, happens items tr = before ++ (x, .own d) :: (between ++ (y, .own e) :: after) ∧
      ∀ q ∈ between, ∀ c, q.2 = .own c → c.var = v → c.type = .read

/-- The same where `e` happens in a function that is called at `y`. -/
def GivesCalled (items : Nat → List Item) (tr : List Nat) (v : Nat) (d : Event) (x : Nat) (e : Event) (y : Nat) : Prop :=
  d.var = v ∧ d.type ≠ .read ∧ e.var = v ∧ (e.type = .read ∨ e.type = .modify) ∧
    ∃ before between after, happens items tr = before ++ (x, .own d) :: (between ++ (y, .called e) :: after) ∧
      ∀ q ∈ between, ∀ c, q.2 = .own c → c.var = v → c.type = .read

end Verif.Uses
