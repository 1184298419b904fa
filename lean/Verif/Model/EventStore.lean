import Verif.Base.Str
import Verif.Base.Dict

/-!
How events of variables are stored and asked for: `VarEvents`, `edulint/linting/analyses/var_events.py:77-126`, `vars_in` and `name_to_var`,
`edulint/linting/analyses/data_dependency.py:463-497`.

Asking for a variable with `for_var` or `[]` changes what is stored, as it is a `defaultdict`: so these give what is stored afterwards, too.
-/

namespace Verif.EventStore

/-- `Variable`, `edulint/linting/analyses/var_events.py:22-25`; scopes are numbered. -/
structure Var where
  name : Str
  scope : Nat
  deriving DecidableEq

/-- `VarEventType`, `edulint/linting/analyses/var_events.py:28-33` -/
inductive Kind where
  | assign | reassign | modify | read | delete
  deriving DecidableEq

/-- `VarEvent`, `edulint/linting/analyses/var_events.py:36-56`, without links. `scope` is `node.scope()`. -/
structure Event where
  node : Nat
  kind : Kind
  scope : Nat
  deriving DecidableEq

/-- `VarEvents`, `edulint/linting/analyses/var_events.py:77-87` -/
abbrev Store := Dict Var (List Event)

/-- What `[]` of a `defaultdict` leaves: the key is there afterwards. -/
def touch (s : Store) (v : Var) : Store := if v ∈ s.map Prod.fst then s else s ++ [(v, [])]

/-- `__getitem__` and `for_var`, `edulint/linting/analyses/var_events.py:95-97,125-126` -/
def forVar (s : Store) (v : Var) : List Event × Store := ((Dict.get? s v).getD [], touch s v)

/-- `add`, `edulint/linting/analyses/var_events.py:113-114` -/
def add (s : Store) (v : Var) (e : Event) : Store := Dict.set s v ((Dict.get? s v).getD [] ++ [e])

/-- `all`, `edulint/linting/analyses/var_events.py:89-93` -/
def all (s : Store) : List (Var × Event) := s.flatMap fun g => g.2.map fun e => (g.1, e)

/-- `for_name`, `edulint/linting/analyses/var_events.py:99-104` -/
def forName (s : Store) (x : Str) : List (Var × Event) := s.flatMap fun g => if g.1.name = x then g.2.map fun e => (g.1, e) else []

/-- `for_node`, `edulint/linting/analyses/var_events.py:106-111` -/
def forNode (s : Store) (n : Nat) : List (Var × Event) := s.flatMap fun g => (g.2.filter fun e => decide (e.node = n)).map fun e => (g.1, e)

/-- `__contains__`, `edulint/linting/analyses/var_events.py:119-120` -/
def contains (s : Store) (v : Var) : Bool := v ∈ s.map Prod.fst

/-- `result.setdefault(var, []).append(event.node)`, `edulint/linting/analyses/data_dependency.py:485` -/
def addNode (d : Dict Var (List Nat)) (v : Var) (n : Nat) : Dict Var (List Nat) := Dict.set d v ((Dict.get? d v).getD [] ++ [n])

/-- `vars_in`, `edulint/linting/analyses/data_dependency.py:463-486`, for the stores of the locations that `syntactic_children_locs` yields. `kinds` are the types of events, all
if there are none; `inside` tells if the node of an event is the given node or in it, and `whole` if that node is the one of the location, or several are given. -/
def varsIn (kinds : Option (List Kind)) (whole : Bool) (inside : Nat → Bool) (locs : List Store) : Dict Var (List Nat) :=
  (locs.flatMap all).foldl
    (fun d p => if (match kinds with | none => true | some ks => decide (p.2.kind ∈ ks)) && (whole || inside p.2.node) then addNode d p.1 p.2.node else d) []

/-- The loop of `name_to_var` over one location, `edulint/linting/analyses/data_dependency.py:493-496`: the variable, if it is found. -/
def nameIn (x : Str) (scope : Nat) : Store → Except PyErr (Option Var)
  | [] => .ok none
  | (_, []) :: _ => .error .indexError
  | (v, e :: _) :: s => if v.name = x ∧ e.scope = scope then .ok (some v) else nameIn x scope s

/-- `name_to_var`, `edulint/linting/analyses/data_dependency.py:489-497`; `scope` is the one of the node. -/
def nameToVar (x : Str) (scope : Nat) : List Store → Except PyErr (Option Var)
  | [] => .ok none
  | s :: locs =>
    match nameIn x scope s with
    | .error e => .error e
    | .ok (some v) => .ok (some v)
    | .ok none => nameToVar x scope locs

end Verif.EventStore
