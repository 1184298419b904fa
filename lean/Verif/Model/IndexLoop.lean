import Verif.Model.ConstValue

/-!
Which loops are taken for loops over the indices of a structure, the beginning of `_check_improve_for_loop` of
`edulint/linting/checkers/unsuited_loop.py`. Calls have no keywords, and an argument with a star is an `other` expression. Targets are
written as expressions.
-/

namespace Verif.Py

/-- `value == n`, for `n` that is `0` or `1`; `equal` is the comparison of floats and of complex numbers. -/
def litIs (equal : Str → Nat → Bool) (n : Nat) : Lit → Bool
  | .int m => decide (m = n)
  | .bool b => decide ((if b then 1 else 0) = n)
  | .float t => equal t n
  | .other t => equal t n
  | .none => false
  | .str _ => false

/-- `strip_to_name`, `edulint/linting/analyses/var_events.py:129-140` -/
def stripToName : Expr → Option Str
  | .subscript a _ => stripToName a
  | .attr a _ => stripToName a
  | .name x => some x
  | _ => none

/-- `isinstance(structure, (nodes.Name, nodes.Attribute, nodes.Subscript))`, `edulint/linting/checkers/unsuited_loop.py:484` -/
def isStructure : Expr → Bool
  | .name _ => true
  | .attr _ _ => true
  | .subscript _ _ => true
  | _ => false

section
variable (equal : Str → Nat → Bool) (bound : Str → Bool)

/-- `is_for_range_len`, `edulint/linting/checkers/unsuited_loop.py:399-413`, of what is iterated over: the argument of `len`. `is_builtin`,
`edulint/linting/analyses/utils.py:139-144`, is that no variable is at the name: `bound` tells if there is one. -/
def forRangeLen (iter : Expr) : Option Expr :=
  match rangeParams iter with
  | some (.const a, .call (.name f) [x], .const c) =>
    if litIs equal 0 a && (!bound f && decide (f = "len".toList)) && litIs equal 1 c then some x else none
  | _ => none

/-- The structure, its variable and the index, `edulint/linting/checkers/unsuited_loop.py:479-494`. -/
def indexLoop (target iter : Expr) : Option (Expr × Str × Str) :=
  match forRangeLen equal bound iter with
  | none => none
  | some x =>
    if isStructure x then
      match stripToName x with
      | none => none
      | some y =>
        match target with
        | .name i => if bound y && bound i then some (x, y, i) else none
        | _ => none
    else none

end

end Verif.Py
