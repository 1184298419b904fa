import Verif.Base.Str

/-!
The checkers that come from PythonTA: targets of loops, variables of comprehensions and code at the top level. (`one-iteration` is in `FlowUse`.)
-/

namespace Verif.PythonTa

/-- Expressions, as far as subscripts in them matter. -/
inductive X where
  | name (n : Str)
  | const
  | subscript (value slice : X)
  /-- an attribute that is read -/
  | attribute (value : X) (attr : Str)
  /-- any other with its children -/
  | other (xs : List X)

/-- Targets. -/
inductive Target where
  /-- `nodes.AssignName` -/
  | name (n : Str)
  | tuple (ts : List Target)
  | list (ts : List Target)
  | starred (t : Target)
  | subscript (value slice : X)
  /-- `nodes.AssignAttr` -/
  | attr (value : X) (a : Str)

/-- A node that is reported. -/
inductive Node where
  | x (x : X)
  | target (t : Target)

mutual

/-- `nodes_of_class(INVALID_TARGETS)` of an expression, `edulint/linting/checkers/python_ta_checkers.py:38-38`: the node, then the children. -/
def X.invalid : X → List Node
  | .name _ => []
  | .const => []
  | .subscript v s => .x (.subscript v s) :: (v.invalid ++ s.invalid)
  | .attribute v _ => v.invalid
  | .other xs => X.invalids xs

def X.invalids : List X → List Node
  | [] => []
  | x :: xs => x.invalid ++ X.invalids xs

end

mutual

/-- What is reported for the target of a loop or a comprehension, `edulint/linting/checkers/python_ta_checkers.py:40-50`. -/
def Target.invalid : Target → List Node
  | .name _ => []
  | .tuple ts => Target.invalids ts
  | .list ts => Target.invalids ts
  | .starred t => t.invalid
  | .subscript v s => .target (.subscript v s) :: (v.invalid ++ s.invalid)
  | .attr v a => .target (.attr v a) :: v.invalid

def Target.invalids : List Target → List Node
  | [] => []
  | t :: ts => t.invalid ++ Target.invalids ts

end

/-- A scope with its variables: that of a comprehension is not a frame. -/
structure Scope where
  comprehension : Bool
  names : List Str

/-- `frame().locals` at the place of the scopes, from the innermost. -/
def frameLocals : List Scope → List Str
  | [] => []
  | s :: rest => if s.comprehension then frameLocals rest else s.names

/-- `isinstance(target, nodes.Name)`: the elements of a target are never of that class. -/
def isName : Target → Bool
  | _ => false

/-- The name of a target, if it has an attribute `name`. -/
def nameOf : Target → Option Str
  | .name n => some n
  | _ => none

/-- What `shadowing-in-comprehension` is reported for, `edulint/linting/checkers/python_ta_checkers.py:122-135`. -/
def shadowing (scopes : List Scope) : Target → List Str
  | .tuple ts => (ts.filter isName).filterMap nameOf |>.filter fun n => (frameLocals scopes).contains n && n != "_".toList
  | .name n => if (frameLocals scopes).contains n && n != "_".toList then [n] else []
  | _ => []

/-- Statements at the top level. -/
inductive Stmt where
  | import_
  | importFrom
  | functionDef
  | asyncFunctionDef
  | classDef
  | assign
  | annAssign
  | augAssign
  /-- `main`: `is_main_block` -/
  | if_ (main : Bool)
  | other
  deriving DecidableEq

/-- `_is_import`, `edulint/linting/checkers/python_ta_checkers.py:165-169`. -/
def isImport : Stmt → Bool
  | .import_ => true
  | .importFrom => true
  | _ => false

/-- `_is_definition`, `edulint/linting/checkers/python_ta_checkers.py:172-176`: `AsyncFunctionDef` is a subclass of `FunctionDef`. -/
def isDefinition : Stmt → Bool
  | .functionDef => true
  | .asyncFunctionDef => true
  | .classDef => true
  | _ => false

/-- `_is_assignment`, `edulint/linting/checkers/python_ta_checkers.py:193-194`. -/
def isAssignment : Stmt → Bool
  | .assign => true
  | _ => false

/-- `is_main_block` -/
def isMain : Stmt → Bool
  | .if_ main => main
  | _ => false

/-- The positions of the statements that are reported, `edulint/linting/checkers/python_ta_checkers.py:153-161`. -/
def topLevel (body : List Stmt) : List Nat :=
  (body.zipIdx.filter fun p => !(isImport p.1 || isDefinition p.1 || isAssignment p.1 || isMain p.1)).map (·.2)

end Verif.PythonTa
