import Verif.Model.PyInt

/-!
Which condition is taken to be the negation of another one: `is_negation` of
`edulint/linting/analyses/utils.py`, and the check of `elif`s that uses it.

`have_same_value` compares the texts of two expressions; here the trees are compared (that
`as_string` prints different trees differently is trusted, see `Verif.Model.Expr`).
-/

namespace Verif.Py

/-- `NEGATED_OP` of a comparison, `edulint/linting/analyses/utils.py:600-613`. -/
def CmpOp.negated : CmpOp → CmpOp
  | .ge => .lt | .le => .gt | .gt => .le | .lt => .ge | .eq => .ne | .ne => .eq
  | .is => .isNot | .isNot => .is | .isIn => .notIn | .notIn => .isIn

/-- `strip_nots`, `edulint/linting/analyses/utils.py:628-632`. -/
def stripNots : Expr → Bool → Expr × Bool
  | .unary .not e, neg => stripNots e (!neg)
  | e, neg => (e, neg)

/-- `ops_match`, `edulint/linting/analyses/utils.py:617-618`. -/
def opsMatch (t : CmpOp → CmpOp) (lops rops : List (CmpOp × Expr)) : Bool :=
  (lops.zip rops).all fun p => decide (t p.1.1 = p.2.1)

section
variable (R : FoldSem Val)

/-- `is_mod_two`, `edulint/linting/analyses/utils.py:634-635`. -/
def isModTwo : Expr → Except PyErr Bool
  | .bin op _ r =>
    if op = .mod then
      match constValue (intSem R) r with
      | .error x => .error x
      | .ok Option.none => .ok false
      | .ok (some v) =>
        match (intSem R).cmp .eq v (.int 2) with
        | .error x => .error x
        | .ok w => (intSem R).truth w
    else .ok false
  | _ => .ok false

/-- `is_eq_mod_two`, `edulint/linting/analyses/utils.py:638-647`, and the choice of the remainder and
of the value it is compared with, `edulint/linting/analyses/utils.py:653-657`. -/
def eqModTwo (left : Expr) : List (CmpOp × Expr) → Except PyErr (Option (Expr × Expr))
  | [(op, right)] =>
    if op = .eq ∨ op = .ne then
      match isModTwo R left with
      | .error x => .error x
      | .ok a =>
        match isModTwo R right with
        | .error x => .error x
        | .ok b => .ok (if a = b then Option.none else if a then some (left, right) else some (right, left))
    else .ok Option.none
  | _ => .ok Option.none

/-- `lt_mod.left`: the dividend of a remainder. -/
def dividend : Expr → Expr
  | .bin _ l _ => l
  | e => e

/-- `mod_two_negation`, `edulint/linting/analyses/utils.py:649-659`. -/
def modTwoNegation (ll : Expr) (lops : List (CmpOp × Expr)) (rl : Expr) (rops : List (CmpOp × Expr)) :
    Except PyErr Bool :=
  match eqModTwo R ll lops with
  | .error x => .error x
  | .ok Option.none => .ok false
  | .ok (some (lmod, lval)) =>
    match eqModTwo R rl rops with
    | .error x => .error x
    | .ok Option.none => .ok false
    | .ok (some (rmod, rval)) => .ok (decide (dividend lmod = dividend rmod) && decide (lval ≠ rval))

mutual
/-- `is_negation`, `edulint/linting/analyses/utils.py:616-689`. -/
def isNegation : Expr → Expr → Bool → Except PyErr Bool
  | .unary op e, rt, neg =>
    if op = .not then isNegation e rt (!neg)
    else .ok ((stripNots rt neg).2 && decide (Expr.unary op e = (stripNots rt neg).1))
  | .boolOp isOr vs, rt, neg =>
    match stripNots rt neg with
    | (.boolOp isOr' ws, neg) =>
      if vs.length = ws.length ∧ ((neg ∧ isOr = isOr') ∨ (!neg ∧ (!isOr) = isOr')) then
        allNegations vs ws neg
      else .ok false
    | _ => .ok false
  | .compare l ops, rt, neg =>
    match stripNots rt neg with
    | (.compare l' ops', neg) =>
      if ops.length ≠ ops'.length then .ok false
      else if neg ∧ opsMatch id ops ops' then
        match isNegation l l' neg with
        | .error x => .error x
        | .ok false => .ok false
        | .ok true => allNegationsOps ops ops' neg
      else if !neg ∧ opsMatch CmpOp.negated ops ops' then
        match isNegation l l' (!neg) with
        | .error x => .error x
        | .ok false => .ok false
        | .ok true => allNegationsOps ops ops' (!neg)
      else if !neg then modTwoNegation R l ops l' ops'
      else .ok false
    | _ => .ok false
  | lt, rt, neg => .ok ((stripNots rt neg).2 && decide (lt = (stripNots rt neg).1))

/-- `all_are_negations` of the values of two `BoolOp`s, `edulint/linting/analyses/utils.py:623-626`. -/
def allNegations : List Expr → List Expr → Bool → Except PyErr Bool
  | v :: vs, w :: ws, neg =>
    match isNegation v w neg with
    | .error x => .error x
    | .ok false => .ok false
    | .ok true => allNegations vs ws neg
  | _, _, _ => .ok true

/-- `all_are_negations` of the right operands of two `Compare`s,
`edulint/linting/analyses/utils.py:620-626`. -/
def allNegationsOps : List (CmpOp × Expr) → List (CmpOp × Expr) → Bool → Except PyErr Bool
  | (_, v) :: vs, (_, w) :: ws, neg =>
    match isNegation v w neg with
    | .error x => .error x
    | .ok false => .ok false
    | .ok true => allNegationsOps vs ws neg
  | _, _, _ => .ok true
end

/-- `_check_redundant_elif`, `edulint/linting/checkers/local_defects.py:326-343`. `elif` is the test of the
`if` that is the only statement of the `else` branch, if there is one, with whether that `if` has an
`else`. The result: whether the `elif` is reported as redundant and whether its `else` is reported as
unreachable. -/
def redundantElif (test : Expr) (elif : Option (Expr × Bool)) : Except PyErr (Bool × Bool) :=
  match elif with
  | Option.none => .ok (false, false)
  | some (test', hasElse) =>
    match isNegation R test test' false with
    | .error x => .error x
    | .ok r => .ok (r, r && hasElse)

end

end Verif.Py
