import Verif.Model.PyInt
import Verif.Model.Types

/-!
Conditions for the solver, `edulint/linting/analyses/z3_analysis.py`.

Variables are known by their expressions instead of the text `as_string` gives. The second component of what
`convert_condition_to_z3_expression` gives, whether a number was taken for a truth value, is left out.
-/

namespace Verif.Py

/-- Terms of the solver. -/
inductive Term where
  | var (isInt : Bool) (key : Expr)
  | bool (b : Bool)
  | int (i : Int)
  | real (text : Str)
  | neg (t : Term)
  | abs (t : Term)
  | add (l r : Term)
  | sub (l r : Term)
  | mul (l r : Term)
  | div (l : Term) (c : Int)
  | mod (l : Term) (c : Int)
  | realDiv (l : Term) (c : Val)
  /-- `t != 0` -/
  | nonzero (t : Term)
  | not (t : Term)
  | and (ts : List Term)
  | or (ts : List Term)
  | cmp (op : CmpOp) (l r : Term)

/-- `z3.is_int`: operations with a real operand are real. -/
def Term.isInt : Term → Bool
  | .var i _ => i
  | .int _ => true
  | .neg t => t.isInt
  | .abs t => t.isInt
  | .add l r => l.isInt && r.isInt
  | .sub l r => l.isInt && r.isInt
  | .mul l r => l.isInt && r.isInt
  | .div _ _ => true
  | .mod _ _ => true
  | _ => false

/-- `initialized_variables`: whether a variable is an integer. -/
abbrev Vars := List (Expr × Bool)

def Vars.lookup (vs : Vars) (e : Expr) : Option Bool := (vs.find? fun p => decide (p.1 = e)).map Prod.snd

section
variable (S : FoldSem Val) (isFloat : Val → Bool) (guess : Expr → Option Types)

/-- `isinstance(v, int) and not isinstance(v, bool)` -/
def isPlainInt : Val → Bool
  | .int _ => true
  | _ => false

/-- `get_const_value(node)` is a value with the property. -/
def constIs (p : Val → Bool) (e : Expr) : Except PyErr Bool :=
  match constValue S e with
  | .error x => .error x
  | .ok none => .ok false
  | .ok (some v) => .ok (p v)

/-- `is_number`, `edulint/linting/analyses/utils.py:232-234` -/
def isNumberNode (e : Expr) : Except PyErr Bool := constIs S (fun v => isPlainInt v || isFloat v) e

/-- `is_integer`, `edulint/linting/analyses/utils.py:237-239` -/
def isIntegerNode (e : Expr) : Except PyErr Bool := constIs S isPlainInt e

/-- `is_float`, `edulint/linting/analyses/utils.py:242-244` -/
def isFloatNode (e : Expr) : Except PyErr Bool := constIs S isFloat e

def notE (b : Except PyErr Bool) : Except PyErr Bool :=
  match b with
  | .error x => .error x
  | .ok b => .ok !b

/-- `_is_expression_with_nonlinear_arithmetic`, `edulint/linting/analyses/z3_analysis.py:31-40` -/
def nonlinear : Expr → Except PyErr Bool
  | .bin op l r =>
    match isNumberNode S isFloat (.bin op l r) with
    | .error x => .error x
    | .ok true => .ok false
    | .ok false =>
      match op with
      | .pow => .ok true
      | .div => notE (isNumberNode S isFloat r)
      | .floordiv | .mod => notE (isIntegerNode S r)
      | _ => .ok false
  | _ => .ok false

/-- `_not_allowed_node`, `edulint/linting/analyses/z3_analysis.py:49-97`, with
`EXCLUDED_OPERATIONS_IN_Z3` and `EXCLUDED_COMPARES_IN_Z3`, `edulint/linting/analyses/z3_analysis.py:14-15`; `d` is
`is_descendant_of_integer_operation` and `pb` is `_is_bool_node(parent)`. -/
def notAllowed (e : Expr) (d pb : Bool) : Except PyErr Bool :=
  match e with
  | .bin op _ r =>
    match op with
    | .lshift | .rshift | .bitor | .bitand | .bitxor | .matmul => .ok true
    | .mod | .floordiv => isFloatNode S isFloat r
    | .div => .ok d
    | _ => .ok false
  | .compare _ ops =>
    match ops with
    | [(op, _)] => .ok (decide (op = .isIn ∨ op = .notIn ∨ op = .is ∨ op = .isNot) || !pb)
    | _ => .ok true
  | .unary op _ => .ok (decide (op = .invert) || (decide (op = .not) && !pb))
  | .boolOp _ _ => .ok !pb
  | .const v =>
    match v with
    | .bool _ => .ok !pb
    | .int _ => .ok false
    | .float _ => .ok d
    | _ => .ok true
  | .other tag _ => .ok (decide (tag ∈ ["Slice".toList, "List".toList, "Set".toList, "Dict".toList, "Tuple".toList]))
  | _ => .ok false

/-- A variable is met, `edulint/linting/analyses/z3_analysis.py:141-161`; one that is an integer stays one. -/
def initVar (e : Expr) (d : Bool) (vs : Vars) : Bool × Vars :=
  match guess e with
  | none => (false, vs)
  | some g =>
    (if d then g.hasOnly [.int] else g.hasOnly [.bool, .float, .int],
      match vs.lookup e with
      | none => vs ++ [(e, d)]
      | some i => if d ∧ i = false then vs.map (fun p => if p.1 = e then (p.1, true) else p) else vs)

mutual
/-- `initialize_variables`, `edulint/linting/analyses/z3_analysis.py:108-179`, with `_is_abs_function`,
`edulint/linting/analyses/z3_analysis.py:100-105`; `noNew` is `dont_make_up_new_vars`. -/
def initVars (noNew : Bool) : Expr → Bool → Bool → Vars → Except PyErr (Bool × Vars)
  | e, d, pb, vs =>
    match notAllowed S isFloat e d pb with
    | .error x => .error x
    | .ok true => .ok (false, vs)
    | .ok false =>
      match e with
      | .name x => .ok (initVar guess (.name x) d vs)
      | .subscript a i => .ok (if noNew then (false, vs) else initVar guess (.subscript a i) d vs)
      | .attr a x => .ok (if noNew then (false, vs) else initVar guess (.attr a x) d vs)
      | .call f args =>
        if f = .name "abs".toList then initFirst noNew args d vs
        else .ok (if noNew then (false, vs) else initVar guess (.call f args) d vs)
      | .bin op l r =>
        match nonlinear S isFloat (.bin op l r) with
        | .error x => .error x
        | .ok true => .ok (if noNew then (false, vs) else initVar guess (.bin op l r) d vs)
        | .ok false =>
          if op = .mod ∨ op = .floordiv then initVars noNew l true false vs
          else
            match initVars noNew l d false vs with
            | .error x => .error x
            | .ok (false, vs') => .ok (false, vs')
            | .ok (true, vs') => initVars noNew r d false vs'
      | .unary op x => initVars noNew x d (decide (op = .not)) vs
      | .boolOp _ es => initAll noNew es d vs
      | .compare l ops =>
        match initVars noNew l d false vs with
        | .error x => .error x
        | .ok (false, vs') => .ok (false, vs')
        | .ok (true, vs') => initOps noNew ops d vs'
      | _ => .ok (true, vs)

/-- `node.args[0]` -/
def initFirst (noNew : Bool) : List Expr → Bool → Vars → Except PyErr (Bool × Vars)
  | [], _, _ => .error .indexError
  | e :: _, d, vs => initVars noNew e d false vs

/-- The operands of `and` and `or`. -/
def initAll (noNew : Bool) : List Expr → Bool → Vars → Except PyErr (Bool × Vars)
  | [], _, vs => .ok (true, vs)
  | e :: es, d, vs =>
    match initVars noNew e d true vs with
    | .error x => .error x
    | .ok (false, vs') => .ok (false, vs')
    | .ok (true, vs') => initAll noNew es d vs'

/-- The operands of a comparison. -/
def initOps (noNew : Bool) : List (CmpOp × Expr) → Bool → Vars → Except PyErr (Bool × Vars)
  | [], _, vs => .ok (true, vs)
  | (_, e) :: es, d, vs =>
    match initVars noNew e d false vs with
    | .error x => .error x
    | .ok (false, vs') => .ok (false, vs')
    | .ok (true, vs') => initOps noNew es d vs'
end

/-- `_convert_to_bool_if_necessary`, `edulint/linting/analyses/z3_analysis.py:187-202`, of a node that is neither a truth
value nor a comparison, `and`, `or` or `not`. -/
def asCondition (pb : Bool) (t : Term) : Term := if pb then .nonzero t else t

/-- `//`, `%` and `/` by a constant, `edulint/linting/analyses/z3_analysis.py:320-326`. The constant is not a number only if
`initialize_variables` was not asked before. -/
def divTerm (op : BinOp) (t : Term) (r : Expr) : Except PyErr (Option Term) :=
  match constValue S r with
  | .error x => .error x
  | .ok none => .error .typeError
  | .ok (some v) =>
    match op with
    | .div => .ok (some (.realDiv t v))
    | .mod =>
      match v.asInt with
      | some c => .ok (if c > 1 then some (.mod t c) else none)
      | none => .error .typeError
    | _ =>
      match v.asInt with
      | some c => .ok (some (.div t c))
      | none => .error .typeError

/-- `+`, `-` and `*`, `edulint/linting/analyses/z3_analysis.py:327-332` -/
def arithTerm (op : BinOp) (l r : Term) : Term :=
  match op with
  | .add => .add l r
  | .sub => .sub l r
  | _ => .mul l r

def arithResult (op : BinOp) (pb : Bool) (tl : Option Term) (tr : Except PyErr (Option Term)) :
    Except PyErr (Option Term) :=
  match tr with
  | .error x => .error x
  | .ok tr =>
    match tl, tr with
    | some a, some b => .ok (some (asCondition pb (arithTerm op a b)))
    | _, _ => .ok none

/-- A variable, `edulint/linting/analyses/z3_analysis.py:245-246`. -/
def varTerm (vs : Vars) (e : Expr) (pb : Bool) : Except PyErr (Option Term) :=
  match vs.lookup e with
  | none => .error .keyError
  | some i => .ok (some (asCondition pb (.var i e)))

def condTerm (pb : Bool) : Except PyErr (Option Term) → Except PyErr (Option Term)
  | .error x => .error x
  | .ok none => .ok none
  | .ok (some t) => .ok (some (asCondition pb t))

mutual
/-- `convert_condition_to_z3_expression`, `edulint/linting/analyses/z3_analysis.py:218-356`, with
`_convert_const_to_z3`, `edulint/linting/analyses/z3_analysis.py:205-215`. -/
def convert (vs : Vars) : Expr → Bool → Except PyErr (Option Term)
  | .name x, pb => varTerm vs (.name x) pb
  | .subscript a i, pb => varTerm vs (.subscript a i) pb
  | .attr a x, pb => varTerm vs (.attr a x) pb
  | .call f args, pb =>
    if f = .name "abs".toList then
      match convertFirst vs args with
      | .error x => .error x
      | .ok none => .error .typeError
      | .ok (some t) => .ok (some (asCondition pb (.abs t)))
    else varTerm vs (.call f args) pb
  | .boolOp isOr es, _ =>
    match convertAll vs es with
    | .error x => .error x
    | .ok none => .ok none
    | .ok (some ts) => .ok (some (if isOr then .or ts else .and ts))
  | .compare l ops, _ =>
    match convert vs l false with
    | .error x => .error x
    | .ok tl =>
      match convertOp vs ops with
      | .error x => .error x
      | .ok (op, tr) =>
        match tl, tr with
        | some a, some b =>
          .ok (if op = .isIn ∨ op = .notIn ∨ op = .is ∨ op = .isNot then none else some (.cmp op a b))
        | _, _ => .ok none
  | .bin op l r, pb =>
    match nonlinear S isFloat (.bin op l r) with
    | .error x => .error x
    | .ok true => varTerm vs (.bin op l r) pb
    | .ok false =>
      match convert vs l false with
      | .error x => .error x
      | .ok tl =>
        match op with
        | .add | .sub | .mul =>
          arithResult op pb tl (convert vs r false)
        | .mod | .floordiv =>
          match tl with
          | none => .ok none
          | some a => if a.isInt then condTerm pb (divTerm S op a r) else .ok none
        | .div =>
          match tl with
          | none => .ok none
          | some a => condTerm pb (divTerm S op a r)
        | _ => .ok none
  | .const v, pb =>
    match v with
    | .bool b => .ok (some (.bool b))
    | .int n => .ok (some (asCondition pb (.int n)))
    | .float t => .ok (some (asCondition pb (.real t)))
    | _ => .ok none
  | .unary op e, pb =>
    match convert vs e (decide (op = .not)) with
    | .error x => .error x
    | .ok none => .ok none
    | .ok (some t) =>
      match op with
      | .neg => .ok (some (asCondition pb (.neg t)))
      | .not => .ok (some (.not t))
      | _ => .ok (some (asCondition pb t))
  | _, _ => .ok none

/-- `node.args[0]` -/
def convertFirst (vs : Vars) : List Expr → Except PyErr (Option Term)
  | [] => .error .indexError
  | e :: _ => convert vs e false

def convertAll (vs : Vars) : List Expr → Except PyErr (Option (List Term))
  | [] => .ok (some [])
  | e :: es =>
    match convert vs e true with
    | .error x => .error x
    | .ok none => .ok none
    | .ok (some t) =>
      match convertAll vs es with
      | .error x => .error x
      | .ok none => .ok none
      | .ok (some ts) => .ok (some (t :: ts))

/-- `node.ops[0]` -/
def convertOp (vs : Vars) : List (CmpOp × Expr) → Except PyErr (CmpOp × Option Term)
  | [] => .error .indexError
  | (op, e) :: _ =>
    match convert vs e false with
    | .error x => .error x
    | .ok t => .ok (op, t)
end

end

/-! ### Meaning of terms, after the theories of SMT-LIB -/

/-- A value of the solver. -/
inductive TV where
  | int (i : Int)
  | bool (b : Bool)
  deriving DecidableEq

section
variable (zero : Int → Int) (σ : Expr → Int)

/-- Division of integers is Euclidean; `zero` is what the solver chooses for a division by zero. -/
def smtDiv (a b : Int) : Int := if b = 0 then zero a else a / b

def TV.int? : Option TV → Option Int
  | some (.int i) => some i
  | _ => none

def TV.bool? : Option TV → Option Bool
  | some (.bool b) => some b
  | _ => none

mutual
/-- The value of a term for integer values of its variables; terms that are not well-sorted and real numbers have
none. -/
def Term.eval : Term → Option TV
  | .var _ e => some (.int (σ e))
  | .bool b => some (.bool b)
  | .int i => some (.int i)
  | .real _ => none
  | .neg t => (TV.int? t.eval).map fun a => .int (-a)
  | .abs t => (TV.int? t.eval).map fun a => .int (if a > 0 then a else -a)
  | .add l r => (TV.int? l.eval).bind fun a => (TV.int? r.eval).map fun b => .int (a + b)
  | .sub l r => (TV.int? l.eval).bind fun a => (TV.int? r.eval).map fun b => .int (a - b)
  | .mul l r => (TV.int? l.eval).bind fun a => (TV.int? r.eval).map fun b => .int (a * b)
  | .div l c => (TV.int? l.eval).map fun a => .int (smtDiv zero a c)
  | .mod l c => (TV.int? l.eval).map fun a => .int (a % c)
  | .realDiv _ _ => none
  | .nonzero t => (TV.int? t.eval).map fun a => .bool (decide (a ≠ 0))
  | .not t => (TV.bool? t.eval).map fun b => .bool !b
  | .and ts => (Term.evalAll ts).map fun bs => .bool (bs.all id)
  | .or ts => (Term.evalAll ts).map fun bs => .bool (bs.any id)
  | .cmp op l r =>
    (TV.int? l.eval).bind fun a => (TV.int? r.eval).bind fun b => (intCmp op a b).map .bool

def Term.evalAll : List Term → Option (List Bool)
  | [] => some []
  | t :: ts => (TV.bool? t.eval).bind fun b => (Term.evalAll ts).map (b :: ·)
end

end

end Verif.Py
