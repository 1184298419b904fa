import Verif.Model.ConstValue
import Verif.Model.Types

/-!
Further checks of `edulint/linting/checkers/local_defects.py`: redundant arithmetic, augmented assignment, `is` with truth values,
`extend` by one element, division converted to an integer, and lists that are multiplied.

Texts of expressions are compared as trees. A display `[…]` is `.other "List" …`, and `*e` in it, or as an argument, is `.other "Starred" [e]`.
-/

namespace Verif.Py.LocalOps

/-- What is used of Python's values: the number that a value is equal to, and the string that it is. -/
structure OpSem (V : Type) extends FoldSem V where
  num : V → Option Rat
  str : V → Option Str

section
variable {V : Type} (S : OpSem V)

/-! ### Redundant arithmetic -/

/-- `v == n` for a constant that may be missing (`None`). -/
def isNum (n : Rat) : Option V → Bool
  | none => false
  | some v => decide (S.num v = some n)

/-- `v == ""` -/
def isEmptyStr : Option V → Bool
  | none => false
  | some v => decide (S.str v = some [])

/-- The condition of `_check_redundant_arithmetic`, `edulint/linting/checkers/local_defects.py:256-271`; `same` tells whether both operands
have the same text. -/
def redundantOp (op : BinOp) (left right : Option V) (same : Bool) : Bool :=
  (op = .add && ((isNum S 0 left || isEmptyStr S left) || (isNum S 0 right || isEmptyStr S right))) ||
  (op = .sub && (isNum S 0 left || isNum S 0 right)) ||
  (op = .mul && ((isNum S 0 left || isNum S 1 left) || (isNum S 0 right || isNum S 1 right))) ||
  (op = .div && isNum S 1 right) ||
  ((op = .div || op = .floordiv || op = .mod) && same) ||
  (op = .pow && (isNum S 0 right || isNum S 1 right))

/-- `_check_redundant_arithmetic` of a `BinOp`, `edulint/linting/checkers/local_defects.py:244-272`: is it reported? -/
def redundantBin (op : BinOp) (l r : Expr) : Except PyErr Bool :=
  match constValue S.toFoldSem l with
  | .error x => .error x
  | .ok left =>
    match constValue S.toFoldSem r with
    | .error x => .error x
    | .ok right => .ok (redundantOp S op left right (decide (l = r)))

/-- `_check_redundant_arithmetic` of an `AugAssign`, `edulint/linting/checkers/local_defects.py:244-272`: is it reported? -/
def redundantAug (op : BinOp) (target value : Expr) : Except PyErr Bool :=
  match constValue S.toFoldSem value with
  | .error x => .error x
  | .ok right => .ok (redundantOp S op none right (decide (target = value)))

end

/-! ### Augmented assignment -/

/-- `_check_augmentable`, `edulint/linting/checkers/local_defects.py:274-305`, of `target = … = value` (for an `AnnAssign`, the only
target): what is put after `op=`, with the target and operator. `guess` is `guess_type`. -/
def augmentable (guess : Expr → Option Types) (targets : List Expr) (value : Expr) : Except PyErr (Option (Expr × BinOp × Expr)) :=
  match value with
  | .bin op l r =>
    match targets with
    | [] => .error .indexError
    | target :: _ =>
      match guess (.bin op l r) with
      | none => .ok none
      | some t =>
        if t.anyMutable then .ok none
        else if target = l then .ok (some (target, op, r))
        else if (op = .add || op = .mul || op = .bitor || op = .bitand) && decide (target = r) && !t.anyContainer then
          .ok (some (target, op, l))
        else .ok none
  | _ => .ok none

/-! ### `is` with truth values -/

/-- The body of the loop of `_check_no_is`, `edulint/linting/checkers/local_defects.py:347-361`: the message, which is what is suggested, and the
expression and operator with the value that it is for. -/
def noIsAt (prev : Expr) : CmpOp → Expr → List (List Tok × Expr × CmpOp × Bool)
  | .is, .const (.bool b) => [((if true != b then [UnOp.not.tok] else []) ++ prev.text, prev, .is, b)]
  | .isNot, .const (.bool b) => [((if false != b then [UnOp.not.tok] else []) ++ prev.text, prev, .isNot, b)]
  | _, _ => []

/-- `_check_no_is`, `edulint/linting/checkers/local_defects.py:345-361`, of the operators after `prev`. -/
def noIs (prev : Expr) : List (CmpOp × Expr) → List (List Tok × Expr × CmpOp × Bool)
  | [] => []
  | (op, val) :: ops => noIsAt prev op val ++ noIs val ops

/-! ### Extending by one element -/

/-- The suggested `append`: `%s.append(%s)` with the texts of the list and of the element. -/
def appendText (e x : Expr) : List Tok := e.text ++ .sym "." :: .ident "append".toList :: .sym "(" :: (x.text ++ [.sym ")"])

/-- `_check_extend`, `edulint/linting/checkers/local_defects.py:129-145` (the message is at
`edulint/linting/checkers/local_defects.py:30-34`): the suggestion, and the list and the element that it is for. -/
def useAppend : Expr → Option (List Tok × Expr × Expr)
  | .call (.attr e a) [.other t [x]] => if a = "extend".toList ∧ t = "List".toList then some (appendText e x, e, x) else none
  | _ => none

/-- `_check_augassign_extend`, `edulint/linting/checkers/local_defects.py:147-153` -/
def useAppendAug (target : Expr) (op : BinOp) : Expr → Option (List Tok × Expr × Expr)
  | .other t [x] => if op = .add ∧ t = "List".toList then some (appendText target x, target, x) else none
  | _ => none

/-! ### Division converted to an integer -/

/-- `_check_div`, `edulint/linting/checkers/local_defects.py:162-170`: the operands of the division. -/
def integralDivision : Expr → Option (Expr × Expr)
  | .call (.name f) [.bin .div a b] => if f = "int".toList then some (a, b) else none
  | _ => none

/-! ### Multiplied lists -/

/-- `is_mutable`, `edulint/linting/checkers/local_defects.py:308-313` -/
def isMutableElem : Expr → Bool
  | .other t _ => decide (t ∈ ["List".toList, "Set".toList, "Dict".toList])
  | .call (.name f) _ => decide (f ∈ ["list".toList, "set".toList, "dict".toList])
  | _ => false

/-- The elements of a display `[…]`. -/
def listElems : Expr → Option (List Expr)
  | .other t es => if t = "List".toList then some es else none
  | _ => none

/-- `_check_multiplied_list`, `edulint/linting/checkers/local_defects.py:307-324`: is it reported? -/
def multipliedList (op : BinOp) (l r : Expr) : Except PyErr Bool :=
  match op, listElems l, listElems r with
  | .mul, some _, some _ => .error .assertionError
  | .mul, some es, none | .mul, none, some es => .ok (es.any isMutableElem)
  | _, _, _ => .ok false

end Verif.Py.LocalOps
