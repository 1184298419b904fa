import Verif.Base.Str
import Verif.Base.Dict

/-!
Which global variables are reported, `edulint/linting/checkers/basic_checker.py:15-56`.

The locations that are reached from the first statement, and those that are reached when functions and classes are entered, are given in the order
in which they are (C82 is about this), and for each the events of its variables (C116 is about these).
-/

namespace Verif.GlobalVars

/-- A variable has a name and a scope, `edulint/linting/analyses/var_events.py:22-25`. -/
structure Var where
  name : Str
  /-- the module, or some function, class, lambda or comprehension -/
  scope : Option Nat
deriving DecidableEq

/-- `edulint/linting/analyses/var_events.py:28-33` -/
inductive Ty where
  | assign
  | reassign
  | modify
  | read
  | delete
deriving DecidableEq

/-- `edulint/linting/analyses/var_events.py:36-56` -/
structure Ev where
  /-- the node of the event -/
  node : Nat
  line : Nat
  type : Ty
  /-- the scope of the parent of the node is not the module: the node is in a function, lambda, class or comprehension, but it is not a function or
  class of the module itself -/
  inside : Bool
deriving DecidableEq

/-- A location. -/
structure Loc where
  isImport : Bool := false
  /-- `edulint/linting/analyses/var_events.py:87`: a dictionary from variables to their events -/
  events : List (Var × List Ev)

/-- `VarEvents.all`, `edulint/linting/analyses/var_events.py:89-93` -/
def Loc.all (l : Loc) : List (Var × Ev) := l.events.flatMap fun (v, es) => es.map fun e => (v, e)

/-- `edulint/linting/checkers/basic_checker.py:36` -/
def defines (v : Var) (e : Ev) : Bool := v.scope.isNone && (e.type == .assign || e.type == .reassign)

/-- `edulint/linting/checkers/basic_checker.py:29-37` -/
def toplevel (locs : List Loc) : Dict Var Ev :=
  locs.foldl (fun d l => if l.isImport then d else l.all.foldl (fun d (v, e) => if defines v e then d.set v e else d) d) []

/-- `edulint/linting/checkers/basic_checker.py:49` -/
def counts (e : Ev) : Bool := e.type != .read && e.inside

/-- A message: for the node, with the name of the variable and a line. -/
structure Msg where
  node : Nat
  name : Str
  line : Nat
deriving DecidableEq

/-- `edulint/linting/checkers/basic_checker.py:46-56`, for one variable of a location. -/
def visit (d : Dict Var Ev) (v : Var) (es : List Ev) : Dict Var Ev × List Msg :=
  match d.get? v with
  | none => (d, [])
  | some def_ =>
    match es.find? counts with
    | none => (d, [])
    | some e => (d.filter fun p => p.1 ≠ v, [⟨def_.node, v.name, e.line⟩])

/-- `edulint/linting/checkers/basic_checker.py:42-56`, for what is left of all variables of all locations. -/
def visitAll : Dict Var Ev → List (Var × List Ev) → List Msg
  | _, [] => []
  | d, (v, es) :: rest => (visit d v es).2 ++ visitAll (visit d v es).1 rest

/-- `visit_module`, `edulint/linting/checkers/basic_checker.py:25-56`: `top` are the locations that are reached from the first statement, `locs` those
that are reached with functions and classes. -/
def check (top locs : List Loc) : List Msg := visitAll (toplevel top) (locs.flatMap Loc.events)

end Verif.GlobalVars
