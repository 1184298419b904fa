import Verif.Model.LocalDefects

/-!
`_check_in_range_instead_of_compare` of `edulint/linting/checkers/local_defects.py`: tests of membership in a range and
the comparisons that are suggested instead of them.
-/

namespace Verif.Py

/-- `is_var`, `edulint/linting/checkers/local_defects.py:512-513`. -/
def isVar : Expr → Bool
  | .name _ => true
  | .call _ _ => true
  | .subscript _ _ => true
  | .attr _ _ => true
  | _ => false

/-- `str(i)` for an integer. -/
def intToks (i : Int) : List Tok :=
  if i < 0 then [.sym "-", .lit (.int i.natAbs)] else [.lit (.int i.natAbs)]

/-- `count_range_values`, `edulint/linting/checkers/local_defects.py:506-510`. -/
def countRangeValues (start stop step : Int) : Int :=
  if start < stop ∧ step < 0 ∨ start > stop ∧ step > 0 then 0 else -((start - stop).fdiv step)

/-- The value of a constant that is an integer. -/
def litInt : Lit → Option Int
  | .int n => some n
  | .bool b => some (if b then 1 else 0)
  | _ => Option.none

/-- `get_value_plus_constant`, `edulint/linting/checkers/local_defects.py:525-542`. The text of the variable is modelled
by the variable itself. A constant that is not an integer gives no value here; in the code it
raises `TypeError` or leads to no values, and a range with such a bound does not exist. -/
def valuePlusConstant (e : Expr) : Option (Expr × Int) :=
  if isVar e then some (e, 0)
  else
    match e with
    | .bin op l r =>
      if op = .add ∨ op = .sub then
        match l, r with
        | l, .const c =>
          if isVar l then (litInt c).map fun i => (l, if op = .add then i else -i) else Option.none
        | .const c, r =>
          if isVar r ∧ op = .add then (litInt c).map fun i => (r, i) else Option.none
        | _, _ => Option.none
      else Option.none
    | _ => Option.none

/-- Too many values to be listed, `edulint/linting/checkers/local_defects.py:553` and
`edulint/linting/checkers/local_defects.py:575`. -/
def tooMany (count step : Int) : Bool := decide (count > 3) || (decide (count > 2) && decide (step.natAbs = 1))

/-- One of the values in a range from a variable,
`edulint/linting/checkers/local_defects.py:579-583`. -/
def plusToks (var : Expr) (value : Int) : List Tok :=
  if value = 0 then var.text
  else var.text ++ (.sym (if value > 0 then "+" else "-")) :: intToks value.natAbs

/-- `get_all_values_in_range_if_not_many`, `edulint/linting/checkers/local_defects.py:544-587`. -/
def allValues (start : Expr) (startVal : Option Int) (stop : Expr) (stopVal : Option Int) (step : Int) :
    Option (List (List Tok)) :=
  match startVal, stopVal with
  | some a, some b =>
    if tooMany (countRangeValues a b step) step then Option.none
    else some ((pyRange a b step).map intToks)
  | Option.none, Option.none =>
    match valuePlusConstant start with
    | Option.none => Option.none
    | some (val1, const1) =>
      match valuePlusConstant stop with
      | Option.none => Option.none
      | some (val2, const2) =>
        if val1 ≠ val2 then Option.none
        else if tooMany (countRangeValues const1 const2 step) step then Option.none
        else some ((pyRange const1 const2 step).map (plusToks val1))
  | _, _ => Option.none

/-- The suggestion for a list of values, `edulint/linting/checkers/local_defects.py:620-628`. -/
def smallToks (isIn : Bool) (var : Expr) : List (List Tok) → List Tok
  | [] => [.lit (.bool (!isIn))]
  | [v] => var.text ++ .sym (if isIn then "==" else "!=") :: v
  | v :: vs => var.text ++ .sym (if isIn then "==" else "!=") ::
      (v ++ .sym (if isIn then "or" else "and") :: smallToks isIn var vs)

/-- `add_brackets_if_necessary`, `edulint/linting/checkers/local_defects.py:519-523`. -/
def addBrackets (e : Expr) : List Tok :=
  match e with
  | .bin _ _ _ => .sym "(" :: (e.text ++ [.sym ")"])
  | .unary _ _ => .sym "(" :: (e.text ++ [.sym ")"])
  | _ => e.text

/-- The suggestion with both bounds, `edulint/linting/checkers/local_defects.py:637-675`. -/
def boundsToks (isIn : Bool) (var start stop : Expr) (step : Int) : List Tok :=
  let lc := if step < 0 then "<" else "<="
  let rc := if step < 0 then "<=" else "<"
  let left := if step < 0 then stop else start
  let right := if step < 0 then start else stop
  if isIn then
    left.text ++ .sym lc :: (var.text ++ .sym "and" :: (var.text ++ .sym rc :: right.text))
  else
    var.text ++ .sym rc :: (left.text ++ .sym "or" :: (right.text ++ .sym lc :: var.text))

/-- The remainder of the first value, `edulint/linting/checkers/local_defects.py:694-696`. -/
def residueToks (start : Expr) (startVal : Option Int) (step : Int) : List Tok :=
  match startVal with
  | some a => intToks (a.fmod step.natAbs)
  | Option.none => addBrackets start ++ .sym "%" :: intToks step.natAbs

/-- What follows for a step other than one, `edulint/linting/checkers/local_defects.py:685-699`. -/
def stepToks (isIn : Bool) (var start : Expr) (startVal : Option Int) (step : Int) : List Tok :=
  .sym (if isIn then "and" else "or") :: (var.text ++ .sym "%" :: (intToks step.natAbs ++
    .sym (if isIn then "==" else "!=") :: residueToks start startVal step))

section
variable (R : FoldSem Val)

/-- A bound of the range, `edulint/linting/checkers/local_defects.py:602-603` and
`edulint/linting/checkers/local_defects.py:611-614`: not a constant, or an integer, or nothing if it is
another constant. -/
def boundValue (e : Expr) : Except PyErr (Option (Option Int)) :=
  match constValue (intSem R) e with
  | .error x => .error x
  | .ok Option.none => .ok (some Option.none)
  | .ok (some .none) => .ok (some Option.none)
  | .ok (some (.int i)) => .ok (some (some i))
  | .ok (some _) => .ok Option.none

/-- `_check_in_range_instead_of_compare`, `edulint/linting/checkers/local_defects.py:501-705`: the suggested text.
`onlyInt` is `takes_only_int_values` and `pure` is `is_pure_expression`. -/
def inRange (onlyInt pure : Expr → Bool) (node : Expr) : Except PyErr (Option (List Tok)) :=
  match node with
  | .compare var [(op, rhs)] =>
    if (op ≠ .isIn ∧ op ≠ .notIn) ∨ !isVar var ∨ !onlyInt var then .ok Option.none
    else
      match rangeParams rhs with
      | Option.none => .ok Option.none
      | some (start, stop, step) =>
        match boundValue R start, boundValue R stop, boundValue R step with
        | .error x, _, _ => .error x
        | _, .error x, _ => .error x
        | _, _, .error x => .error x
        | .ok (some startVal), .ok (some stopVal), .ok (some (some stepVal)) =>
          if !pure start ∨ !pure stop ∨ stepVal = 0 then .ok Option.none
          else
            match allValues start startVal stop stopVal stepVal with
            | some values => .ok (some (smallToks (op = .isIn) var values))
            | Option.none =>
              if stepVal.natAbs = 1 then .ok (some (boundsToks (op = .isIn) var start stop stepVal))
              else .ok (some (boundsToks (op = .isIn) var start stop stepVal ++
                stepToks (op = .isIn) var start startVal stepVal))
        | _, _, _ => .ok Option.none
  | _ => .ok Option.none

end

end Verif.Py
