import Verif.Model.Expr

/-!
Constant folding of the checkers: `get_const_value` of `edulint/linting/analyses/utils.py`, and
`get_range_params`.
-/

namespace Verif.Py

/-- What folding uses of Python's values besides the meaning of operators: which values are instances
of `int` or `float`, and whether a value is equal to `0`. -/
structure FoldSem (V : Type) extends Sem V where
  isNumber : V → Bool
  isZero : V → Except PyErr Bool

section
variable {V : Type} (S : FoldSem V)

/-- `BINARY_SYMBOL_TO_OP[op]` of a `BinOp`, `edulint/linting/analyses/utils.py:388-411`: `@` is missing. -/
def foldBin (op : BinOp) (a b : V) : Except PyErr V :=
  if op = .matmul then .error .keyError else S.binary op a b

/-- `BINARY_SYMBOL_TO_OP[op]` of a comparison, `edulint/linting/analyses/utils.py:388-411`: `in` and
`not in` are missing. -/
def foldCmp (op : CmpOp) (a b : V) : Except PyErr V :=
  if op = .isIn ∨ op = .notIn then .error .keyError else S.cmp op a b

/-- `UNARY_SYMBOL_TO_OP[op](val)`, `edulint/linting/analyses/utils.py:381-386`. -/
def foldUn (op : UnOp) (v : V) : Except PyErr V :=
  if op = .not then
    match S.truth v with
    | .error x => .error x
    | .ok b => .ok (S.ofBool (!b))
  else S.unary op v

/-- `lambda lt, rt: lt and rt` and `lambda lt, rt: lt or rt`, `edulint/linting/analyses/utils.py:409-410`. -/
def foldBool (isOr : Bool) (a b : V) : Except PyErr V :=
  match S.truth a with
  | .error x => .error x
  | .ok t => if t = isOr then .ok a else .ok b

mutual
/-- `get_const_value_rec`, `edulint/linting/analyses/utils.py:414-440`. The right operand of a binary
operation is evaluated first. -/
def foldRec : Expr → Except PyErr V
  | .const v => .ok (S.lit v)
  | .unary op e =>
    match foldRec e with
    | .error x => .error x
    | .ok v => if S.isNumber v then foldUn S op v else .error .valueError
  | .bin op l r =>
    match foldRec r with
    | .error x => .error x
    | .ok b =>
      if op = .div ∨ op = .floordiv ∨ op = .mod then
        match S.isZero b with
        | .error x => .error x
        | .ok true => .error .valueError
        | .ok false =>
          match foldRec l with
          | .error x => .error x
          | .ok a => foldBin S op a b
      else
        match foldRec l with
        | .error x => .error x
        | .ok a => foldBin S op a b
  | .boolOp isOr vs =>
    match vs with
    | [] => .error .assertionError
    | e :: es =>
      match foldRec e with
      | .error x => .error x
      | .ok a => match es with
        | [] => .error .assertionError
        | _ :: _ => foldReduce isOr a es
  | .compare l ops =>
    match ops with
    | [(op, r)] =>
      match foldRec l with
      | .error x => .error x
      | .ok a =>
        match foldRec r with
        | .error x => .error x
        | .ok b => foldCmp S op a b
    | _ => .error .valueError
  | _ => .error .valueError

/-- `reduce(op, map(get_const_value_rec, values))`, `edulint/linting/analyses/utils.py:433`. -/
def foldReduce (isOr : Bool) (a : V) : List Expr → Except PyErr V
  | [] => .ok a
  | e :: es =>
    match foldRec e with
    | .error x => .error x
    | .ok b =>
      match foldBool S isOr a b with
      | .error x => .error x
      | .ok c => foldReduce isOr c es
end

/-- `get_const_value`, `edulint/linting/analyses/utils.py:443-447`: a `ValueError`, `KeyError` or
`TypeError` gives `None` (here `.ok none`; a value that is Python's `None` is given as a value). Other
exceptions propagate. -/
def constValue (e : Expr) : Except PyErr (Option V) :=
  match foldRec S e with
  | .ok v => .ok (some v)
  | .error .valueError => .ok none
  | .error .keyError => .ok none
  | .error .typeError => .ok none
  | .error .unicodeError => .ok none
  | .error x => .error x

end

/-- `get_range_params`, `edulint/linting/analyses/utils.py:354-377`. -/
def rangeParams : Expr → Option (Expr × Expr × Expr)
  | .call (.name f) args =>
    if f = "range".toList then
      match args with
      | [stop] => some (.const (.int 0), stop, .const (.int 1))
      | [start, stop] => some (start, stop, .const (.int 1))
      | [start, stop, step] => some (start, stop, step)
      | _ => none
    else none
  | _ => none

end Verif.Py
