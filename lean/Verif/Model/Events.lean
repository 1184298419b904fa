import Verif.Model.ForEach

/-!
What `VarEventListener` (`edulint/linting/analyses/variable_scope.py:46-361`) records about the variables of one location, in the order it
does.

Several things are written by nesting two: `pair a b` are two subexpressions of which the second may be `pair` again, and so on.

Not modelled: lambdas, comprehensions, functions and classes, which have scopes of their own (C75 is about these), imports, `global`
and `nonlocal`, `match`, and the exception for calls of `locals` and `globals` (lines 325-331). Which variable a name stands for is not
told either: a name is looked up on the stack just to see whether it is known.
-/

namespace Verif.Events

open ForEach (nonPure)

/-- Expressions -/
inductive E where
  /-- a constant, or nothing -/
  | const
  | name (x : Str)
  | attr (e : E) (a : Str)
  | sub (e i : E)
  /-- a call, of which the arguments are `arg` nested -/
  | call (f args : E)
  /-- `arg a rest`: the argument `a` that is given by position, and the other ones; those given by name or with `*` need not be
  below `arg` as the call is not their parent -/
  | arg (a rest : E)
  /-- any expression with subexpressions of which all are evaluated in order -/
  | pair (a b : E)
  /-- `and`, `or`, and the rest of a comparison after its second operand -/
  | short (a b : E)
  /-- `a if c else b` -/
  | cond (c a b : E)
  /-- `x := e` -/
  | walrus (x : Str) (e : E)
deriving DecidableEq

/-- Targets -/
inductive T where
  /-- nothing: `tup` and `lst` end with it -/
  | nil
  | name (x : Str)
  | attr (e : E) (a : Str)
  | sub (e i : E)
  /-- the first element of a tuple and the other ones; also the targets of an assignment with several -/
  | tup (t u : T)
  /-- the first element of a list and the other ones -/
  | lst (t u : T)
  | star (t : T)

/-- Statements, as far as they are in one location -/
inductive S where
  /-- an expression that is a statement, in `return`, the condition of `if` or `while`, … -/
  | expr (e : E)
  | assign (t : T) (e : E)
  | aug (t : T) (e : E)
  | ann (t : T) (a : E) (v : Option E)
  | del (t : T)
  /-- the target of `for`, or after `as` in `with` or `except` -/
  | bind (t : T)

/-- What is done with a variable. `store` stands for `ASSIGN` and `REASSIGN`. -/
inductive Kind where
  | read
  | store
  | modify
  | delete
deriving DecidableEq

/-- What is done, and the name of the variable -/
abbrev Op := Kind × Str

/-- `strip_to_name` of an expression, `edulint/linting/analyses/var_events.py:129-140` -/
def root : E → Option Str
  | .name x => some x
  | .attr e _ => root e
  | .sub e _ => root e
  | _ => none

/-- `if stripped is not None: self._add_var_event(stripped.name, stripped, …)` -/
def rooted (k : Kind) (e : E) : List Op := (root e).toList.map fun x => (k, x)

/-- `visit` of an expression, `edulint/linting/analyses/variable_scope.py:325-348` and the visits of children; `call` tells whether the
parent of the expression is a call. The target of `x := e` is a child that comes before the value. -/
def visE (call : Bool) : E → List Op
  | .const => []
  | .name x => [(.read, x)]
  | .attr e a => (if call && nonPure a then rooted .modify e else []) ++ visE false e
  | .sub e i => visE false e ++ visE false i
  | .call f args => visE true f ++ visE false args
  | .arg a rest => visE true a ++ visE false rest
  | .pair a b => visE false a ++ visE false b
  | .short a b => visE false a ++ visE false b
  | .cond c a b => visE false c ++ visE false a ++ visE false b
  | .walrus x e => (.store, x) :: visE false e

/-- `visit` of a target, `edulint/linting/analyses/variable_scope.py:266-276, 285-287, 350-355` and the visits of children -/
def visT : T → List Op
  | .nil => []
  | .name x => [(.store, x)]
  | .attr e _ => rooted .modify e ++ visE false e
  | .sub e i => visE false e ++ visE false i
  | .tup t u => visT t ++ visT u
  | .lst t u => visT t ++ visT u
  | .star t => visT t

/-- `_visit_assigned_to`, `edulint/linting/analyses/variable_scope.py:266-276` -/
def assigned : T → List Op
  | .name x => [(.store, x)]
  | .attr e _ => visE false e ++ rooted .modify e
  | .sub e i => visE false e ++ visE false i ++ rooted .modify e
  | t => visT t

/-- `for target in self._names_from_tuple(…): self._visit_assigned_to(target)`, `edulint/linting/analyses/variable_scope.py:278-283, 292-293` -/
def unpacked : T → List Op
  | .tup t u => unpacked t ++ unpacked u
  | t => assigned t

/-- `strip_to_name` of a target, and `READ` for it, `edulint/linting/analyses/variable_scope.py:298-300` -/
def readTarget : T → List Op
  | .name x => [(.read, x)]
  | .attr e _ => rooted .read e
  | .sub e _ => rooted .read e
  | _ => []

/-- `visit` of what is deleted, `edulint/linting/analyses/variable_scope.py:312-314, 357-361`, and the visits of children -/
def deleted : T → List Op
  | .nil => []
  | .name x => [(.delete, x)]
  | .attr e _ => rooted .modify e
  | .sub e i => visE false e ++ visE false i
  | .tup t u => deleted t ++ deleted u
  | .lst t u => deleted t ++ deleted u
  | .star t => deleted t

/-- What the listener is told by a statement, `edulint/linting/analyses/variable_scope.py:285-314, 325-361` -/
def ops : S → List Op
  | .expr e => visE false e
  | .assign t e => visE false e ++ unpacked t
  | .aug t e => readTarget t ++ visE false e ++ assigned t
  | .ann t a v => visE false a ++ (match v with | some v => visE false v | none => []) ++ assigned t
  | .del t => deleted t
  | .bind t => visT t

/-! ### Recording -/

/-- `VarEventType`, `edulint/linting/analyses/var_events.py:28-33` -/
inductive EvType where
  | assign
  | reassign
  | modify
  | read
  | delete
deriving DecidableEq

/-- `stack`: which names are in each of its dictionaries; the top comes first. -/
abbrev Stack := List (List Str)

/-- `_get_var_scope_index(name) is not None`, `edulint/linting/analyses/variable_scope.py:123-127` -/
def known (σ : Stack) (x : Str) : Bool := σ.any (·.contains x)

/-- `self.stack[-1][name] = …`, `edulint/linting/analyses/variable_scope.py:151` -/
def enter (x : Str) : Stack → Stack
  | [] => []
  | d :: σ => (if d.contains x then d else x :: d) :: σ

/-- `self.stack[scope_index].pop(name)`, `edulint/linting/analyses/variable_scope.py:158-162` -/
def leave (x : Str) : Stack → Stack
  | [] => []
  | d :: σ => if d.contains x then d.filter (· ≠ x) :: σ else d :: leave x σ

/-- `name in self.stack[-1]`, `edulint/linting/analyses/variable_scope.py:136` -/
def onTop (x : Str) : Stack → Bool
  | [] => false
  | d :: _ => d.contains x

/-- What is recorded, `_init_var_in_scope`, `_del_var_from_scope` and `_add_var_event`: nothing for names that are not known,
`edulint/linting/analyses/variable_scope.py:80-100, 135-162`. -/
def record (σ : Stack) : List Op → List (EvType × Str) × Stack
  | [] => ([], σ)
  | (.store, x) :: l =>
    let r := record (enter x σ) l
    ((if onTop x σ then .reassign else .assign, x) :: r.1, r.2)
  | (.read, x) :: l =>
    let r := record σ l
    (if known σ x then (.read, x) :: r.1 else r.1, r.2)
  | (.modify, x) :: l =>
    let r := record σ l
    (if known σ x then (.modify, x) :: r.1 else r.1, r.2)
  | (.delete, x) :: l =>
    let r := record (leave x σ) l
    (if known σ x then (.delete, x) :: r.1 else r.1, r.2)

/-- `loc.var_events` after a statement was visited -/
def events (σ : Stack) (s : S) : List (EvType × Str) := (record σ (ops s)).1

/-- The events of a variable that get definitions from before the location: those before the first one in `KILLING_EVENTS`, with
that one if it is in `GENERATING_EVENTS`, `edulint/linting/analyses/data_dependency.py:27-34, 240-257`. -/
def exposed (x : Str) : List (EvType × Str) → List EvType
  | [] => []
  | (k, y) :: l =>
    if y = x then
      match k with
      | .read => .read :: exposed x l
      | .modify => [.modify]
      | _ => []
    else exposed x l

end Verif.Events
