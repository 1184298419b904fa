import Verif.Base.Str
import Verif.Base.Dict

/-!
Events in a part of a location, and those that concern a part of a variable: `get_events_for`, `get_events_in`, `_get_matching_superpart` and `filter_events_for` of
`edulint/linting/analyses/data_dependency.py`.

Variables in slices are just read in the locations considered; there are no assignments in expressions. So all the events of such a variable in a location have the
same definitions.
-/

namespace Verif.Parts

/-- Expressions. -/
inductive E where
  | name (x : Str)
  | const (n : Nat)
  | attr (e : E) (a : Str)
  | sub (e i : E)
  /-- any other with two subexpressions -/
  | op (n : Nat) (a b : E)
  deriving DecidableEq

/-! ### Events in nodes -/

/-- An event with the place of its node in the statement. -/
structure Event where
  var : Str
  path : List Nat
  deriving DecidableEq

/-- A node: the statement of its location, and its place therein; `[]` if it is the node of the location. -/
structure Place where
  stmt : Nat
  path : List Nat
  deriving DecidableEq

/-- `event.node == n or n in event.node.node_ancestors()` for an event in the statement. -/
def within (i : Nat) (e : Event) (p : Place) : Bool := p.stmt == i && p.path.isPrefixOf e.path

/-- `check_ancestors`, `edulint/linting/analyses/data_dependency.py:677-678`. -/
def checkAncestors (ps : List Place) : Bool := ps.all fun p => p.path.isEmpty

/-- `get_events_for` without `event_types`, `edulint/linting/analyses/data_dependency.py:674-686`: `events` are those of the locations in a statement. No statement is
in another one. -/
def eventsFor (events : Nat → List Event) (vars : List Str) (ps : List Place) : List Event :=
  ps.flatMap fun p => vars.flatMap fun v =>
    (events p.stmt).filter fun e => e.var == v && (!checkAncestors ps || ps.any (within p.stmt e))

/-- `result[event.var].append(event)`, `edulint/linting/analyses/data_dependency.py:705`, of a `defaultdict(list)` -/
def addEvent (d : Dict Str (List Event)) (e : Event) : Dict Str (List Event) := Dict.set d e.var ((Dict.get? d e.var).getD [] ++ [e])

/-- `get_events_by_var` without `event_types`, `edulint/linting/analyses/data_dependency.py:703-706`. -/
def eventsByVar (events : Nat → List Event) (vars : List Str) (ps : List Place) : Dict Str (List Event) := (eventsFor events vars ps).foldl addEvent []

/-- `get_events_in` without `event_types`, `edulint/linting/analyses/data_dependency.py:646-657`. -/
def eventsIn (events : Nat → List Event) (ps : List Place) : List Event :=
  ps.flatMap fun p => (events p.stmt).filter fun e => !checkAncestors ps || ps.any (within p.stmt e)

/-! ### Parts of variables -/

/-- The variables that are read, in order. -/
def reads : E → List Str
  | .name x => [x]
  | .const _ => []
  | .attr e _ => reads e
  | .sub e i => reads e ++ reads i
  | .op _ a b => reads a ++ reads b

/-- A location: its expression, and the definitions of the variables that reach it. -/
structure Loc where
  expr : E
  defs : Str → List Nat

/-- The definitions of the events of a variable in the location, `[e.definitions for e in …]`; the slice is not a location, so that all events in its location are
considered (see `eventsFor`). -/
def defsOf (l : Loc) (v : Str) : List (List Nat) := ((reads l.expr).filter (· == v)).map l.defs

/-- Variables of a slice are the same, and the definitions of their events are, `edulint/linting/analyses/data_dependency.py:514-525`. The order of variables does not
matter. -/
def sliceMatches (l : Loc) (s : E) (l' : Loc) (s' : E) : Bool :=
  (reads s).all (reads s').contains && (reads s').all (reads s).contains && (reads s).all fun v => defsOf l v == defsOf l' v

/-- What a node is the child of. -/
inductive Up where
  /-- the expression of an attribute that is read -/
  | attr (a : Str)
  /-- the expression of an attribute that is stored or deleted -/
  | store (a : Str)
  /-- the value of a subscript -/
  | sub (s : E)
  | other
  deriving DecidableEq

/-- A step of the structure, from the name. -/
inductive Step where
  | attr (a : Str)
  | sub (s : E)
  deriving DecidableEq

/-- `_get_matching_superpart`, `edulint/linting/analyses/data_dependency.py:500-528`: the steps of the structure in its location, and the nodes above the name of
the event in its location. What is left of these is above the part that is found. -/
def superpart (l l' : Loc) : List Step → List Up → Option (List Up)
  | [], up => some up
  | .attr a :: steps, .attr a' :: up => if a = a' then superpart l l' steps up else none
  | .sub s :: steps, .sub s' :: up => if sliceMatches l s l' s' then superpart l l' steps up else none
  | _, _ => none

/-- `filter_events_for`, `edulint/linting/analyses/data_dependency.py:538-546`: the nodes above what remains of the events, which have a location each. -/
def filterEvents (l : Loc) (steps : List Step) (events : List (Loc × List Up)) : List (Loc × List Up) :=
  if steps = [] then events else events.filterMap fun e => (superpart l e.1 steps e.2).map (e.1, ·)

/-- The structure as an expression. -/
def build (e : E) : List Step → E
  | [] => e
  | .attr a :: steps => build (.attr e a) steps
  | .sub s :: steps => build (.sub e s) steps

/-! ### Values -/

/-- What operations do. -/
structure Interp (V : Type) where
  const : Nat → V
  attr : V → Str → V
  sub : V → V → V
  op : Nat → V → V → V

/-- The value of an expression. -/
def eval {V : Type} (I : Interp V) (ρ : Str → V) : E → V
  | .name x => ρ x
  | .const n => I.const n
  | .attr e a => I.attr (eval I ρ e) a
  | .sub e i => I.sub (eval I ρ e) (eval I ρ i)
  | .op n a b => I.op n (eval I ρ a) (eval I ρ b)

end Verif.Parts
