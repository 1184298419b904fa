import Verif.Model.Z3

/-!
Whether a condition may be true, `edulint/linting/analyses/z3_analysis.py`.
-/

namespace Verif.Py

section
variable (S : FoldSem Val) (isFloat : Val → Bool) (guess : Expr → Option Types)

/-- `sat_condition`, `edulint/linting/analyses/z3_analysis.py:376-388`. `check` is `sat_check_condition`,
`edulint/linting/analyses/z3_analysis.py:359-369`: `some true` is `z3.sat`, `some false` is `z3.unsat`, and `none` is
`z3.unknown`. -/
def satCondition (check : Term → Option Bool) (c : Expr) : Except PyErr (Option Bool) :=
  match initVars S isFloat guess true c false true [] with
  | .error x => .error x
  | .ok (false, _) => .ok none
  | .ok (true, vs) =>
    match convert S isFloat vs c true with
    | .error x => .error x
    | .ok none => .ok none
    | .ok (some t) => .ok (check t)

end

end Verif.Py
