import Verif.Model.CommonBranches
import Verif.Model.IfAttempts

/-!
When an `if` is left as it is because all branches around it have an `if`, `edulint/linting/checkers/duplication/duplicate_if.py:117-128`.
-/

namespace Verif.Consistent

open Verif.Py.Branches

/-- `isinstance(n, nodes.If)` -/
def isIf : Stmt → Bool
  | .if_ _ _ _ => true
  | .simple _ _ => false

/-- `is_one_of_parents_ifs`, `edulint/linting/checkers/duplication/duplicate_if.py:117-128`. `parents` are the parent of the node, the parent of this and so on,
as long as these are `if`s. -/
def isOneOfParentsIfs (parents : List If) : Bool :=
  match parents.getLast? with
  | none => false
  | some top => (getBodies (extractFromElif top).2).all fun body => body.any isIf

/-- What is reported for an `if` with these parents; `f` is what else is known of it (`edulint/linting/checkers/duplication/duplicate_if.py:882-884`). -/
def reported (enabled : IfAttempts.Sym → Bool) (parents : List If) (f : IfAttempts.If) : List IfAttempts.Sym :=
  (IfAttempts.duplicateInIf enabled { f with oneOfParents := isOneOfParentsIfs parents }).1

end Verif.Consistent
