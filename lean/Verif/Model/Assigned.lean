import Verif.Base.Str

/-!
Which expressions are assigned to a variable, `edulint/linting/analyses/data_dependency.py:551-626`.

One definition of a variable is looked at; which definitions there are is the subject of other models.
-/

namespace Verif.Assigned

/-- Expressions: tuples, and others. -/
inductive E where
  | leaf (n : Nat)
  | tuple (es : List E)

/-- What is assigned to. -/
inductive Target where
  | name
  | tuple (ts : List Target)
  /-- `[a, b]` -/
  | list (ts : List Target)
  /-- `*a` -/
  | starred (t : Target)
  /-- attributes and subscripts -/
  | other

/-- Nodes that are not expressions. -/
inductive Kind where
  | import_ | importFrom | functionDef | classDef | arguments | with_ | exceptHandler | matchAs
deriving DecidableEq

/-- What defines a variable. -/
inductive Binder where
  /-- one of the targets of `nodes.Assign` -/
  | assign (t : Target) (e : E)
  /-- `x: int = e` or `x: int` -/
  | ann (e : Option E)
  /-- `x += e` -/
  | aug (e : E)
  /-- `(x := e)` -/
  | named (e : E)
  /-- `for t in e` in a loop or a comprehension -/
  | iter (t : Target) (e : E)
  /-- `with e as t` -/
  | with_ (t : Target) (e : E)
  /-- arguments of a function, including those with stars, `except E as x` and `case x` -/
  | parent (k : Kind)
  /-- `case [*x]` and `case {**x}` -/
  | matchRest
  /-- `_ASSIGNING_STATEMENTS`, `edulint/linting/analyses/data_dependency.py:553` -/
  | statement (k : Kind)

/-- What is yielded. -/
inductive Found where
  | expr (e : E)
  | node (k : Kind)

/-- The child of a target that the occurrence is in. -/
def Target.child : Target → Nat → Option Target
  | .tuple ts, i => ts[i]?
  | .list ts, i => ts[i]?
  | .starred t, _ => some t
  | _, _ => none

/-- The number of elements if the target is a tuple, not a list. -/
def Target.len : Target → Option Nat
  | .tuple ts => some ts.length
  | _ => none

/-- The nodes above an occurrence in a target, from the outermost: `some (len, i)` for the child `i` of a tuple, `none` for other nodes. -/
def steps : List Nat → Target → List (Option (Nat × Nat))
  | [], _ => []
  | i :: p, t => t.len.map (·, i) :: (match t.child i with | some t' => steps p t' | none => [])

/-- The loop, `edulint/linting/analyses/data_dependency.py:613-624`: the nodes that the children have as parents, from the outermost. `true` if the expression is
destructured. -/
def descend : List (Option (Nat × Nat)) → E → Bool × E
  | [], e => (false, e)
  | some (len, i) :: rest, .tuple es =>
    if len ≠ es.length then (true, .tuple es)
    else match es[i]? with
      | some e => descend rest e
      | none => (true, .tuple es)
  | _ :: _, e => (true, e)

/-- The target has other nodes, `edulint/linting/analyses/data_dependency.py:599-626`: `above` is what is found first going up from the occurrence, `_ASSIGNING_ITERS` or
`_ASSIGNING_EXPRESSIONS`; if there is nothing, the parent of the module is asked for its parent. The first child is the whole target, whose parent is not a tuple. -/
def inTarget (destructuring : Bool) (t : Target) (path : List Nat) : Option (Bool × E) → Except PyErr (List Found)
  | none => .error .attributeError
  | some (true, it) => .ok (if destructuring then [.expr it] else [])
  | some (false, value) =>
    .ok (if !(descend (none :: steps path t) value).1 || destructuring then [.expr (descend (none :: steps path t) value).2] else [])

/-- A loop around, if it is the first thing found going up. -/
def around (loop : Option E) : Option (Bool × E) := loop.map fun it => (true, it)

/-- What is yielded for one definition, `edulint/linting/analyses/data_dependency.py:578-626`: `loop` is what the innermost loop around the statement (even around the
function) iterates over. -/
def assigned (includeNodes : Kind → Bool) (destructuring : Bool) (loop : Option E) (path : List Nat) : Binder → Except PyErr (List Found)
  | .assign t e => if path = [] then .ok [.expr e] else inTarget destructuring t path (some (false, e))
  | .ann e => .ok (e.toList.map .expr)
  | .aug e => .ok [.expr e]
  | .named e => .ok [.expr e]
  | .iter t e => if path = [] then .ok (if destructuring then [.expr e] else []) else inTarget destructuring t path (some (true, e))
  | .with_ t _ =>
    if path = [] then .ok (if includeNodes .with_ then [.node .with_] else []) else inTarget destructuring t path (around loop)
  | .parent k => .ok (if includeNodes k then [.node k] else [])
  | .matchRest => inTarget destructuring .name path (around loop)
  | .statement k => .ok [.node k]

/-! ### What is assigned -/

/-- Values. -/
inductive V where
  | atom (n : Nat)
  | tuple (vs : List V)

mutual

/-- The value of an expression, given the values of those that are not tuples. -/
def eval (ρ : Nat → V) : E → V
  | .leaf n => ρ n
  | .tuple es => .tuple (evals ρ es)

def evals (ρ : Nat → V) : List E → List V
  | [] => []
  | e :: es => eval ρ e :: evals ρ es

end

/-- The parts of a target and of a value that is assigned to it. There is no starred one. -/
def unpack : Target → V → Option (List Target × List V)
  | .tuple ts, .tuple vs => some (ts, vs)
  | .list ts, .tuple vs => some (ts, vs)
  | _, _ => none

/-- The value that is assigned to the occurrence of a name in a target, if it can be and there is no starred target. -/
def bound : List Nat → Target → V → Option V
  | [], .name, v => some v
  | [], _, _ => none
  | i :: p, t, v =>
    match unpack t v with
    | none => none
    | some (ts, vs) =>
      if ts.length = vs.length then
        match ts[i]?, vs[i]? with
        | some t', some v' => bound p t' v'
        | _, _ => none
      else none

end Verif.Assigned
