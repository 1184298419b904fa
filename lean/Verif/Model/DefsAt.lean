import Verif.Model.Reaching

/-!
Which events may have given a name the value that it has at a node: `get_defs_at`, `edulint/linting/analyses/data_dependency.py:709-828`.

Sets are lists. `isinstance(def_, nodes.FunctionDef)` (`edulint/linting/analyses/data_dependency.py:738`) is never true, as `def_` is an event, and a call is never
a `nodes.Name` (`edulint/linting/analyses/data_dependency.py:742`), so that all functions of the file are explored for each call.
-/

namespace Verif.Cfg

/-- `computed_kills` after `collect_reaching_definitions` for all blocks, `edulint/linting/analyses/data_dependency.py:419` and `433-437`. -/
def Computed (P : Prog) (reachable : Nat → Bool) (phases : List Phase) (computed : Nat → Nat → Nat) : Prop :=
  ∀ ph ∈ phases, ∃ n, ((Fix.init P reachable ph.base ph.order).run P n).queue = [] ∧
    ∀ b ∈ ph.order, computed b = ((Fix.init P reachable ph.base ph.order).run P n).computed b

/-- A node: itself, the block and the position of its location (`get_cfg_loc`), and the function that it is in. -/
structure Site where
  node : Nat
  block : Nat
  pos : Nat
  function : Option Nat
  deriving DecidableEq

/-- What is known of the file. -/
structure Calling where
  /-- the variables with the name that is asked for (`var.name == varname`) -/
  named : Nat → Bool
  /-- whether there is a call in the node of a location of a block, `get_calls` -/
  hasCall : Nat → Nat → Bool
  /-- `root.function_defs` -/
  functions : List Nat
  /-- the sources of the edges to the end of a function, `function.args.cfg_loc.block.cfg.end.predecessors` -/
  exits : Nat → List Nat
  /-- `scope_is_nested(loc.node.scope(), var.scope)` for a location of a block -/
  sees : Nat → Nat → Bool
  /-- `root.unresolved_calls` -/
  unresolved : List Site
  /-- nodes of the uses of a function, `edulint/linting/analyses/data_dependency.py:793-797` -/
  users : Nat → List Site
  /-- `has_just_recursive_calls` -/
  recursive : Nat → Bool
  /-- `get_uncalled_functions` -/
  uncalled : List Nat
  /-- `scope_is_nested(function.parent.scope(), var.scope)` -/
  around : Nat → Nat → Bool
  /-- the last nodes of the scope of a function, `edulint/linting/analyses/data_dependency.py:816-817` -/
  scopeEnds : Nat → List Site

/-- The events of a location that give a value to the name, `edulint/linting/analyses/data_dependency.py:732-735`. -/
def ownDefs (C : Calling) (its : List Item) : List Event :=
  its.filterMap fun
    | .own e => if C.named e.var && e.type.kills then some e else none
    | .called _ => none

section
variable (P : Prog) (reachable : Nat → Bool) (indexToBlock : List Nat) (computed : Nat → Nat → Nat) (C : Calling)

/-- The events of variables with the name that are told by a condition, in `root.block_kills` of a block, `edulint/linting/analyses/data_dependency.py:445-457`. -/
def killsAt (cond : Nat → Bool) (b : Nat) : List Event :=
  ((List.range P.vars).filter fun v => C.named v && cond v).flatMap fun v => reachingKills P indexToBlock (computed b v) v

/-- The sources of edges that can be reached, `edulint/linting/analyses/data_dependency.py:747-751` -/
def exitsOf (f : Nat) : List Nat := (C.exits f).filter reachable

/-- What a location does to the name, and whether it is taken to give it a value always, `edulint/linting/analyses/data_dependency.py:729-758`. -/
def locDefs (b i : Nat) : List Event × Bool :=
  let own := ownDefs C ((P.locs b)[i]?.getD [])
  let functions := if C.hasCall b i then C.functions else []
  let exits := functions.flatMap (exitsOf reachable C)
  (own ++ exits.flatMap (killsAt P indexToBlock computed C (C.sees b)),
    !own.isEmpty || (!functions.isEmpty && exits.all fun p => !(killsAt P indexToBlock computed C (C.sees b) p).isEmpty))

/-- The locations of a block before a position, from the last, `edulint/linting/analyses/data_dependency.py:728-761`. -/
def before (b : Nat) : Nat → List Event × Bool
  | 0 => ([], false)
  | i + 1 =>
    let here := locDefs P reachable indexToBlock computed C b i
    if here.2 then here
    else (here.1 ++ (before b i).1, (before b i).2)

/-- Predecessors of a block, `edulint/linting/analyses/data_dependency.py:766-775` -/
def fromPreds (b : Nat) : List Event × Bool :=
  let preds := (P.preds b).filter reachable
  (preds.flatMap (killsAt P indexToBlock computed C fun _ => true), preds.all fun p => !(killsAt P indexToBlock computed C (fun _ => true) p).isEmpty)

/-- What is found without calls, and whether all predecessors are taken to give a value always, `edulint/linting/analyses/data_dependency.py:721-775`. -/
def local_ (s : Site) (toplevel : Bool) : List Event × Bool :=
  let here := before P reachable indexToBlock computed C s.block (if toplevel then s.pos else s.pos + 1)
  if here.2 then (here.1, true)
  else (here.1 ++ (fromPreds P reachable indexToBlock computed C s.block).1, (fromPreds P reachable indexToBlock computed C s.block).2)

/-- `visited_nodes` and `explored_functions` -/
structure Explored where
  nodes : List Site
  functions : List Nat

/-- What is found in calls that are made up, `edulint/linting/analyses/data_dependency.py:800-812`. -/
def madeUp (f : Nat) : List Event :=
  if (C.users f).isEmpty || C.recursive f then
    (C.uncalled.flatMap (exitsOf reachable C)).flatMap (killsAt P indexToBlock computed C (C.around f))
  else []

/-- `end_nodes` for a function, `edulint/linting/analyses/data_dependency.py:785` and `793-817`. -/
def endNodes (explored : List Nat) (f : Nat) : List Site :=
  C.unresolved ++ if f ∈ explored then [] else C.users f ++ if (C.users f).isEmpty || C.recursive f then C.scopeEnds f else []

/-- `_get_defs_at_rec`, `edulint/linting/analyses/data_dependency.py:713-828`. No node is visited twice, so that there is a depth that is not exceeded;
the first number is how many levels there may be below. -/
def defsAtRec : Nat → Site → Bool → Explored → List Event × Explored
  | fuel, s, toplevel, E =>
    let here := local_ P reachable indexToBlock computed C s toplevel
    match (if here.2 then none else s.function) with
    | none => (here.1, E)
    | some f =>
      let found := here.1 ++ if f ∈ E.functions then [] else madeUp P reachable indexToBlock computed C f
      let ends := endNodes C E.functions f
      let E := { E with functions := if f ∈ E.functions then E.functions else f :: E.functions }
      match fuel with
      | 0 => (found, E)
      | fuel + 1 =>
        ends.foldl (fun (acc : List Event × Explored) s =>
          if s ∈ acc.2.nodes then acc
          else
            let r := defsAtRec fuel s false { acc.2 with nodes := s :: acc.2.nodes }
            (acc.1 ++ r.1, r.2)) (found, E)

/-- `get_defs_at`, `edulint/linting/analyses/data_dependency.py:709-710` -/
def getDefsAt (fuel : Nat) (s : Site) : List Event := (defsAtRec P reachable indexToBlock computed C fuel s true ⟨[s], []⟩).1

end

end Verif.Cfg
