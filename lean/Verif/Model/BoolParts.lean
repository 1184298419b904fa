import Verif.Model.BoolOps
import Verif.Model.Z3

/-!
Parts of conditions that the solver finds redundant, `edulint/linting/checkers/simplifiable_if.py:2042-2218`.

`unsat` is `unsatisfiable`, `edulint/linting/analyses/z3_analysis.py:372-373`, any function of a term, and `len` is
`len(node.as_string())`. That data dependency analysis has to succeed before (`requires_data_dependency_analysis`) is left out: if it
does not, nothing is reported.
-/

namespace Verif.Py.BoolParts

open Verif.Py.BoolOps (sepBy isPure)

section
variable (S : FoldSem Val) (isFloat : Val → Bool)

mutual
/-- The second component of what `convert_condition_to_z3_expression` gives, `edulint/linting/analyses/z3_analysis.py:218-356`, for
expressions that are translated: whether a value that may not be a truth value is taken for one; `pb` is `_is_bool_node(parent)`. -/
def takesNumber : Expr → Bool → Bool
  | .name _, pb | .subscript _ _, pb | .attr _ _, pb => pb
  | .call f args, pb => if f = .name "abs".toList then pb || takesFirst args else pb
  | .boolOp _ es, _ => takesAny es
  | .compare l ops, _ => takesNumber l false || takesOp ops
  | .bin op l r, pb =>
    match nonlinear S isFloat (.bin op l r) with
    | .ok true => pb
    | _ =>
      match op with
      | .add | .sub | .mul => pb || takesNumber l false || takesNumber r false
      | _ => pb || takesNumber l false
  | .const (.bool _), _ => false
  | .const _, pb => pb
  | .unary .not e, _ => takesNumber e true
  | .unary _ e, pb => pb || takesNumber e false
  | _, _ => false

/-- `node.args[0]` -/
def takesFirst : List Expr → Bool
  | [] => false
  | e :: _ => takesNumber e false

def takesAny : List Expr → Bool
  | [] => false
  | e :: es => takesNumber e true || takesAny es

/-- `node.ops[0]` -/
def takesOp : List (CmpOp × Expr) → Bool
  | [] => false
  | (_, e) :: _ => takesNumber e false
end

/-- An operand with its translation. -/
structure Part where
  node : Expr
  term : Term
  removed : Bool

variable (unsat : Term → Bool) (len : Expr → Nat)

/-- `implies`, `edulint/linting/analyses/z3_analysis.py:391-393` -/
def implies (a b : Term) : Bool := unsat (.and [a, .not b])

/-- `_should_remove_ith`, `edulint/linting/checkers/simplifiable_if.py:2042-2059` -/
def shouldRemove (forward backward isOr : Bool) (leni lenj : Nat) : Bool :=
  (!(forward && backward) && ((forward && isOr) || (backward && !isOr))) || (forward && backward && decide (leni > lenj))

/-- `_ith_is_redundant`, `edulint/linting/checkers/simplifiable_if.py:2061-2069` -/
def isRedundant (others : List Term) (t : Term) (isOr : Bool) : Bool :=
  (isOr && implies unsat t (.or others)) || (!isOr && implies unsat (.and others) t)

/-- The first loop of `_redundant_condition_parts`, `edulint/linting/checkers/simplifiable_if.py:2082-2084`. -/
def constantParts (isOr : Bool) (ps : List Part) : List Part :=
  ps.map fun p => { p with removed := (isOr && unsat p.term) || (!isOr && unsat (.not p.term)) }

/-- The inner loop, `edulint/linting/checkers/simplifiable_if.py:2091-2105`: whether the operand is removed, and those after it. -/
def compareWith (isOr : Bool) (cur : Part) : List Part → Bool × List Part
  | [] => (false, [])
  | p :: ps =>
    if p.removed then (compareWith isOr cur ps).map id (p :: ·)
    else
      let forward := implies unsat cur.term p.term
      let backward := implies unsat p.term cur.term
      if shouldRemove forward backward isOr (len cur.node) (len p.node) then (true, p :: ps)
      else if forward || backward then (compareWith isOr cur ps).map id ({ p with removed := true } :: ·)
      else (compareWith isOr cur ps).map id (p :: ·)

theorem compareWith_length (isOr : Bool) (cur : Part) : ∀ ps, (compareWith unsat len isOr cur ps).2.length = ps.length
  | [] => rfl
  | p :: ps => by
    unfold compareWith
    have := compareWith_length isOr cur ps
    simp only
    split
    · simp [this]
    · split
      · rfl
      · split <;> simp [this]

/-- The second loop, `edulint/linting/checkers/simplifiable_if.py:2087-2105`. -/
def comparePairs (isOr : Bool) : List Part → List Part
  | [] => []
  | p :: ps =>
    if p.removed then p :: comparePairs isOr ps
    else { p with removed := (compareWith unsat len isOr p ps).1 } :: comparePairs isOr (compareWith unsat len isOr p ps).2
termination_by ps => ps.length
decreasing_by
  · simp
  · simp [compareWith_length]

/-- The operands that are left. -/
def kept (ps : List Part) : List Part := ps.filter fun p => !p.removed

/-- The third loop, `edulint/linting/checkers/simplifiable_if.py:2108-2122`, for the operands after those `before`. -/
def further (isOr : Bool) (before : List Part) : List Part → List Part
  | [] => before
  | p :: ps =>
    if p.removed then further isOr (before ++ [p]) ps
    else
      let others := (kept (before ++ ps)).map Part.term
      if others.isEmpty then before ++ p :: ps
      else further isOr (before ++ [{ p with removed := isRedundant unsat others p.term isOr }]) ps

/-- `_redundant_condition_parts`, `edulint/linting/checkers/simplifiable_if.py:2071-2124`; `removed` is false for all operands. -/
def redundantParts (isOr : Bool) (ps : List Part) : List Part :=
  further unsat isOr [] (comparePairs unsat len isOr (constantParts unsat isOr ps))

/-- The translation of an operand, if the function goes on, `edulint/linting/checkers/simplifiable_if.py:2156-2170`. -/
def convertPart (vs : Vars) (boolParent : Bool) (e : Expr) : Except PyErr (Option Part) :=
  match convert S isFloat vs e true with
  | .error x => .error x
  | .ok none => .ok none
  | .ok (some t) =>
    match e with
    | .const (.bool _) => .ok none
    | _ => .ok (if takesNumber S isFloat e true && !boolParent then none else some ⟨e, t, false⟩)

/-- The loop, `edulint/linting/checkers/simplifiable_if.py:2154-2170`. -/
def convertParts (vs : Vars) (boolParent : Bool) : List Expr → Except PyErr (Option (List Part))
  | [] => .ok (some [])
  | e :: es =>
    match convertPart S isFloat vs boolParent e with
    | .error x => .error x
    | .ok none => .ok none
    | .ok (some p) =>
      match convertParts vs boolParent es with
      | .error x => .error x
      | .ok none => .ok none
      | .ok (some ps) => .ok (some (p :: ps))

/-- `add_brackets_if_composed`, `edulint/linting/checkers/simplifiable_if.py:168-178` -/
def brackets (standalone : Bool) (e : Expr) : List Tok :=
  match standalone, e with
  | true, e => e.text
  | _, .name _ | _, .const _ | _, .call _ _ | _, .attr _ _ | _, .subscript _ _ | _, .compare _ _ | _, .boolOp false _ => e.text
  | _, e => .sym "(" :: (e.text ++ [.sym ")"])

/-- The messages. -/
inductive Msg where
  /-- `condition-always-true-or-false` -/
  | always (node : Expr) (value : Bool)
  /-- `redundant-condition-part` -/
  | redundant (node : Expr) (original suggestion : List Tok)

/-- The suggestion, `edulint/linting/checkers/simplifiable_if.py:2211-2216`. -/
def joinText (isOr : Bool) (es : List Expr) : List Tok := sepBy (boolTok isOr) (es.map (brackets (es.length == 1)))

/-- The condition that is left, `edulint/linting/checkers/simplifiable_if.py:2190-2195`. -/
def newCondition (isOr : Bool) : List Term → Term
  | [t] => t
  | ts => if isOr then .or ts else .and ts

/-- `_check_always_true_or_false`, `edulint/linting/checkers/simplifiable_if.py:2126-2144`: the value that is reported. -/
def always (t : Term) : Option Bool :=
  if unsat t then some false else if unsat (.not t) then some true else none

/-- What is reported about the operands that are left, `edulint/linting/checkers/simplifiable_if.py:2174-2218`, where `rest` is what is
reported about operands. -/
def report (isOr : Bool) (values : List Expr) (ps : List Part) (rest : Except PyErr (List Msg)) : Except PyErr (List Msg) :=
  if (kept ps).isEmpty then .ok [.always (.boolOp isOr values) (!isOr)]
  else
    match always unsat (newCondition isOr ((kept ps).map Part.term)) with
    | some b => .ok [.always (.boolOp isOr values) b]
    | none =>
      if (kept ps).length = values.length then rest
      else .ok [.redundant (.boolOp isOr values) (Expr.boolOp isOr values).text (joinText isOr ((kept ps).map Part.node))]

variable (guess : Expr → Option Types)

mutual
/-- `_make_suggestion_for_redundant_condition_part`, `edulint/linting/checkers/simplifiable_if.py:2146-2218`; `boolParent` is
`_is_bool_node(node.parent)`. -/
def checkParts (boolParent : Bool) : Expr → Except PyErr (List Msg)
  | .boolOp isOr values =>
    match initVars S isFloat guess false (.boolOp isOr values) false true [] with
    | .error x => .error x
    | .ok (false, _) => .ok []
    | .ok (true, vs) =>
      match convertParts S isFloat vs boolParent values with
      | .error x => .error x
      | .ok none => .ok []
      | .ok (some ps) => report unsat isOr values (redundantParts unsat len isOr ps) (checkOperands values)
  | _ => .ok []

/-- The operands that are joined by `and` or `or` themselves, `edulint/linting/checkers/simplifiable_if.py:2201-2203`. -/
def checkOperands : List Expr → Except PyErr (List Msg)
  | [] => .ok []
  | e :: es =>
    match checkParts true e with
    | .error x => .error x
    | .ok ms =>
      match checkOperands es with
      | .error x => .error x
      | .ok ns => .ok (ms ++ ns)
end

/-- The part of `visit_boolop` that uses the solver, `edulint/linting/checkers/simplifiable_if.py:2220-2278`, if the messages are enabled
and no exception is raised before: it is reached if all operands are pure. -/
def visitBoolOp (pure : Expr → Bool) (inBoolOp boolParent isOr : Bool) (values : List Expr) : Except PyErr (List Msg) :=
  if values.all pure && !inBoolOp then checkParts S isFloat unsat len guess boolParent (.boolOp isOr values) else .ok []

/-- `visit_compare`, `edulint/linting/checkers/simplifiable_if.py:2295-2310`; `inBoolOp` is `isinstance(node.parent, nodes.BoolOp)`. -/
def visitCompare (pure : Expr → Bool) (inBoolOp : Bool) (e : Expr) : Except PyErr (List Msg) :=
  if inBoolOp || !pure e then .ok []
  else
    match initVars S isFloat guess false e false true [] with
    | .error x => .error x
    | .ok (false, _) => .ok []
    | .ok (true, vs) =>
      match convert S isFloat vs e true with
      | .error x => .error x
      | .ok none => .ok []
      | .ok (some t) =>
        match always unsat t with
        | none => .ok []
        | some b => .ok [.always e b]

end

end Verif.Py.BoolParts
