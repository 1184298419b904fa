import Verif.Model.Z3

/-!
Conditions with blocks of statements between them, `edulint/linting/analyses/z3_block_analysis.py`.

Every assignment to a variable makes a new variable of the solver. It is named after the variable and a number
(`create_prefixed_var`, `edulint/linting/analyses/z3_analysis.py:418-430`); here it is the pair of the two, and what is
translated keeps the numbers that the variables have at that point.

What the module asks other parts of EduLint for is given: whether an expression is pure (`is_pure_expression`), whether a
node may contain a mutable variable (`may_contain_mutable_var`), and whether a variable of an expression is modified in the
block.
-/

namespace Verif.Py.Blocks

/-- The target of an assignment; targets other than names are not looked into. -/
inductive Target where
  | name (x : Str)
  | other (n : Nat)

mutual
/-- Statements. `assign` is an `Assign` with one target that is not a tuple, or an `AnnAssign` with a value; `assigns` is an
`Assign` of which the one target is a tuple; `end_` is `break`, `continue`, `raise` or `return`. Everything else is `other`,
also chained assignments and annotations without a value. -/
inductive Stmt where
  | assign (t : Target) (e : Expr)
  | assigns (ts : List Target) (e : Expr)
  | aug (t : Target) (op : BinOp) (e : Expr)
  | expr (e : Expr)
  | pass
  | assert_ (e : Expr)
  | end_
  | if_ (test : Expr) (body : Block) (rest : Rest)
  | other (n : Nat)

inductive Block where
  | nil
  | cons (s : Stmt) (b : Block)

/-- What comes after the body of an `if`. An `else` with nothing but an `if` in it is an `elif`
(`If.has_elif_block` of `astroid`). -/
inductive Rest where
  | none
  | elif_ (test : Expr) (body : Block) (rest : Rest)
  | else_ (body : Block)
end

def Block.toList : Block → List Stmt
  | .nil => []
  | .cons s b => s :: b.toList

/-- `node.get_children()` of an expression. -/
def children : Expr → List Expr
  | .const _ => []
  | .name _ => []
  | .unary _ e => [e]
  | .bin _ l r => [l, r]
  | .boolOp _ es => es
  | .compare l ops => l :: ops.map Prod.snd
  | .call f args => f :: args
  | .attr e _ => [e]
  | .subscript e i => [e, i]
  | .ifExp t a b => [t, a, b]
  | .other _ es => es

section
variable (S : FoldSem Val) (isFloat : Val → Bool) (guess : Expr → Option Types)
variable (pure modified : Expr → Bool)

/-! ### Which nodes are admitted -/

/-- `ALLOWED_EXPR_NODES_FOR_Z3_BLOCK_ANALYSIS`, `edulint/linting/analyses/z3_block_analysis.py:31-40` -/
def allowedExpr : Expr → Bool
  | .bin .. => true
  | .boolOp .. => true
  | .call .. => true
  | .compare .. => true
  | .const _ => true
  | .name _ => true
  | .unary .. => true
  | .other tag _ => decide (tag = "Tuple".toList)
  | _ => false

/-- `check_purity_for_Z3_block_analysis`, `edulint/linting/analyses/z3_block_analysis.py:71-92`, of an expression. -/
def pureValue : Expr → Bool
  | .ifExp t a b => pure t && pure a && pure b
  | e => allowedExpr e && pure e

/-- The test and both values of an `IfExp`, `edulint/linting/analyses/z3_block_analysis.py:139-143`. -/
def parts : Expr → List Expr
  | .ifExp t a b => [t, a, b]
  | e => [e]

/-- Go on only after success. -/
def andThen (r : Except PyErr (Bool × Vars)) (f : Vars → Except PyErr (Bool × Vars)) : Except PyErr (Bool × Vars) :=
  match r with
  | .error x => .error x
  | .ok (false, vs) => .ok (false, vs)
  | .ok (true, vs) => f vs

/-- `edulint/linting/analyses/z3_block_analysis.py:145-158`; `modified` is
`_vars_from_non_linear_arithmetic_are_modified_in`, `edulint/linting/analyses/z3_block_analysis.py:95-106`. -/
def initExprs : List Expr → Vars → Except PyErr (Bool × Vars)
  | [], vs => .ok (true, vs)
  | e :: es, vs =>
    if allowedExpr e then andThen (initVars S isFloat guess (modified e) e false true vs) (initExprs es)
    else .ok (false, vs)

/-- A condition: `edulint/linting/analyses/z3_block_analysis.py:189-201`. -/
def validExpr (e : Expr) (vs : Vars) : Except PyErr (Bool × Vars) :=
  if allowedExpr e && pure e then initExprs S isFloat guess modified [e] vs else .ok (false, vs)

/-- A statement other than an `if`: `edulint/linting/analyses/z3_block_analysis.py:189-201` with
`_initialize_variables_in_node`, `edulint/linting/analyses/z3_block_analysis.py:117-158`. -/
def validSimple : Stmt → Vars → Except PyErr (Bool × Vars)
  | .assign _ e, vs =>
    if pureValue pure e then initExprs S isFloat guess modified (parts e) vs else .ok (false, vs)
  | .assigns _ e, vs =>
    if pureValue pure e then initExprs S isFloat guess modified ((children e).flatMap parts) vs else .ok (false, vs)
  | .aug t op e, vs =>
    if pureValue pure e then
      match t with
      | .other _ => .ok (false, vs)
      | .name x =>
        match nonlinear S isFloat (.bin op (.name x) e) with
        | .error err => .error err
        | .ok true => .ok (false, vs)
        | .ok false => initExprs S isFloat guess modified (parts e) vs
    else .ok (false, vs)
  | .expr e, vs => .ok (pureValue pure e, vs)
  | .pass, vs => .ok (true, vs)
  | .assert_ e, vs => if pure e then initExprs S isFloat guess modified (parts e) vs else .ok (false, vs)
  | .end_, vs => .ok (true, vs)
  | _, vs => .ok (false, vs)

mutual
/-- The loop of `validate_and_initialize_variables_for_Z3_block_analysis`,
`edulint/linting/analyses/z3_block_analysis.py:182-201`. The nodes are taken from the end of a list to which the children of
an `if` are added, so the last comes first; `direct` is `current_node.parent is node`. -/
def validStmt (direct : Bool) : Stmt → Vars → Except PyErr (Bool × Vars)
  | .if_ t b r, vs =>
    andThen (validRest false r vs) fun vs =>
      andThen (validBlock false b vs) (validExpr S isFloat guess pure modified t)
  | .end_, vs => .ok (!direct, vs)
  | s, vs => validSimple S isFloat guess pure modified s vs

def validBlock (direct : Bool) : Block → Vars → Except PyErr (Bool × Vars)
  | .nil, vs => .ok (true, vs)
  | .cons s b, vs => andThen (validBlock direct b vs) (validStmt direct s)

def validRest (direct : Bool) : Rest → Vars → Except PyErr (Bool × Vars)
  | .none, vs => .ok (true, vs)
  | .elif_ t b r, vs =>
    andThen (validRest false r vs) fun vs =>
      andThen (validBlock false b vs) (validExpr S isFloat guess pure modified t)
  | .else_ b, vs => validBlock direct b vs
end

variable (mutableExpr : Expr → Bool) (mutableStmt : Stmt → Bool)

/-- `validate_and_initialize_variables_for_Z3_block_analysis`, `edulint/linting/analyses/z3_block_analysis.py:161-203`, of a
condition. -/
def validateExpr (e : Expr) (vs : Vars) : Except PyErr (Bool × Vars) :=
  if mutableExpr e then .ok (false, vs) else validExpr S isFloat guess pure modified e vs

/-- The same of a statement. -/
def validateStmt (s : Stmt) (vs : Vars) : Except PyErr (Bool × Vars) :=
  if mutableStmt s then .ok (false, vs)
  else
    match s with
    | .if_ t b r =>
      andThen (validRest S isFloat guess pure modified true r vs) fun vs =>
        andThen (validBlock S isFloat guess pure modified true b vs) (validExpr S isFloat guess pure modified t)
    | s => validStmt S isFloat guess pure modified false s vs

def validateStmts : List Stmt → Vars → Except PyErr (Bool × Vars)
  | [], vs => .ok (true, vs)
  | s :: ss, vs =>
    andThen (validateStmt S isFloat guess pure modified mutableStmt s vs) (validateStmts ss)

end

/-! ### Formulas -/

/-- How often each variable was assigned to. -/
abbrev Ver := Expr → Nat

mutual
/-- Conditions of the solver: a translated condition with the numbers of its variables, the connectives, and the equation of
a new variable with its value. -/
inductive Fm where
  | tt
  | ff
  | term (ver : Ver) (t : Term)
  | not (f : Fm)
  | and (f g : Fm)
  | or (f g : Fm)
  | imp (f g : Fm)
  | eq (k : Expr) (n : Nat) (v : Vl)

/-- Values of the solver: a translated expression, `z3.If`, and a variable. -/
inductive Vl where
  | term (ver : Ver) (t : Term)
  | ite (c : Fm) (a b : Vl)
  | var (k : Expr) (n : Nat)
end

/-- `z3.And` of a list -/
def conj : List Fm → Fm
  | [] => .tt
  | f :: fs => .and f (conj fs)

/-- `z3.Or` of a list -/
def disj : List Fm → Fm
  | [] => .ff
  | f :: fs => .or f (disj fs)

/-- The solver's interface takes a truth value among numbers for `0` or `1`. -/
def num : TV → Int
  | .int i => i
  | .bool b => if b then 1 else 0

section
variable (zero : Int → Int) (σ : Expr → Nat → Int)

/-- The values of the variables with the given numbers. -/
def at_ (ver : Ver) : Expr → Int := fun k => σ k (ver k)

/-- The value of a translated expression. Operands of `+=`, `-=` and `*=` may be truth values; nowhere else does the
interface have to convert them. -/
def termValue (ver : Ver) : Term → Option TV
  | .add l r => (l.eval zero (at_ σ ver)).bind fun a => (r.eval zero (at_ σ ver)).map fun b => .int (num a + num b)
  | .sub l r => (l.eval zero (at_ σ ver)).bind fun a => (r.eval zero (at_ σ ver)).map fun b => .int (num a - num b)
  | .mul l r => (l.eval zero (at_ σ ver)).bind fun a => (r.eval zero (at_ σ ver)).map fun b => .int (num a * num b)
  | t => t.eval zero (at_ σ ver)

/-- `z3.If(c, a, b)` -/
def iteValue (c : Bool) : Option TV → Option TV → Option TV
  | some (.bool a), some (.bool b) => some (.bool (if c then a else b))
  | some a, some b => some (.int (if c then num a else num b))
  | _, _ => none

/-- `(convert_to_bool(var) if z3.is_bool(var_value) else var) == var_value`,
`edulint/linting/analyses/z3_block_analysis.py:297-299`, of the values. -/
def eqValue (i : Int) : Option TV → Bool
  | some (.int j) => decide (i = j)
  | some (.bool b) => decide (i ≠ 0) == b
  | none => false

mutual
def Fm.eval : Fm → Bool
  | .tt => true
  | .ff => false
  | .term ver t => decide (t.eval zero (at_ σ ver) = some (.bool true))
  | .not f => !f.eval
  | .and f g => f.eval && g.eval
  | .or f g => f.eval || g.eval
  | .imp f g => !f.eval || g.eval
  | .eq k n v => eqValue (σ k n) v.eval

def Vl.eval : Vl → Option TV
  | .term ver t => termValue zero σ ver t
  | .ite c a b => iteValue c.eval a.eval b.eval
  | .var k n => some (.int (σ k n))
end

end

/-! ### Translating a block -/

/-- `var_rewrite_counts` and `accumulated_relations_between_vars` -/
structure St where
  cnt : Ver
  rels : List Fm

/-- What is known after a block: it does not go on (`({}, [], True)`), or the numbers of the variables, the variables that
were assigned to, and the assertions. -/
inductive Out where
  | ends
  | goes (ver : Ver) (changed : List Expr) (asserts : List Fm)

/-- Go on unless `None` was found. -/
def andSome {α β : Type} (r : Except PyErr (Option α)) (f : α → Except PyErr (Option β)) : Except PyErr (Option β) :=
  match r with
  | .error x => .error x
  | .ok none => .ok none
  | .ok (some a) => f a

/-- Two translations, both of which are done before `None` is looked for. -/
def both {α β : Type} (r : Except PyErr (Option α)) (s : Except PyErr (Option β)) : Except PyErr (Option (α × β)) :=
  match r with
  | .error x => .error x
  | .ok a =>
    match s with
    | .error x => .error x
    | .ok b =>
      match a, b with
      | some a, some b => .ok (some (a, b))
      | _, _ => .ok none

def Ver.set (ver : Ver) (k : Expr) (n : Nat) : Ver := fun e => if e = k then n else ver e

/-- `_update_relations_between_vars`, `edulint/linting/analyses/z3_block_analysis.py:285-301` -/
def St.bump (st : St) (k : Expr) (v : Vl) : St :=
  ⟨st.cnt.set k (st.cnt k + 1), st.rels ++ [.eq k (st.cnt k + 1) v]⟩

/-- `_how_var_changed_after_if`, `edulint/linting/analyses/z3_block_analysis.py:245-282`, from the conditions and branches
that are left; `branches` are the numbers of the variables after the branches that go on. (`return_found` is never `True`:
`edulint/linting/analyses/z3_block_analysis.py:216-242`, `:393-405` put only branches that go on into the list.) -/
def howChanged (x : Expr) (before : Nat) (hasElse : Bool) : List Fm → List Ver → Vl
  | _, [] => .var x before
  | [], ver :: _ => .var x (ver x)
  | c :: cs, ver :: vers =>
    if hasElse && vers.isEmpty then .var x (ver x)
    else .ite c (.var x (ver x)) (howChanged x before hasElse cs vers)

/-- What the branches of an `if` so far gave: `if_conditions`, `assertions`, `changed_vars_in_any_branch`,
`var_changes_in_each_branch` and `always_returns`. -/
structure Acc where
  conds : List Fm
  asserts : List Fm
  changed : List Expr
  branches : List Ver
  always : Bool

/-- `_change_assertions_and_vars_after_elif_block`, `edulint/linting/analyses/z3_block_analysis.py:206-242`; where there is no
condition before, `z3.And` of none is left out there. -/
def Acc.branch (acc : Acc) (cond : Fm) : Out → Acc
  | .ends => { acc with asserts := acc.asserts ++ [.imp (conj (acc.conds.map .not)) (.not cond)] }
  | .goes ver changed asserts =>
    { conds := acc.conds ++ [cond]
      asserts := acc.asserts ++ asserts.map (.imp (.and (conj (acc.conds.map .not)) cond))
      changed := acc.changed ++ changed
      branches := acc.branches ++ [ver]
      always := false }

/-- The `else` branch, `edulint/linting/analyses/z3_block_analysis.py:378-407`. -/
def Acc.elseBranch (acc : Acc) : Out → Acc
  | .ends => { acc with asserts := acc.asserts ++ [disj acc.conds] }
  | .goes ver changed asserts =>
    { conds := acc.conds
      asserts := acc.asserts ++ asserts.map (.imp (conj (acc.conds.map .not)))
      changed := acc.changed ++ changed
      branches := acc.branches ++ [ver]
      always := false }

/-- A new variable for each that was changed in a branch, `edulint/linting/analyses/z3_block_analysis.py:304-328`,
`edulint/linting/analyses/z3_block_analysis.py:419-428`. -/
def newVars (acc : Acc) (hasElse : Bool) (ver : Ver) : List Expr → Ver × St → Ver × St
  | [], r => r
  | x :: xs, (ver', st) =>
    newVars acc hasElse ver xs
      (ver'.set x (st.cnt x + 1), st.bump x (howChanged x (ver x) hasElse acc.conds acc.branches))

/-- The end of `_changed_vars_after_if`, `edulint/linting/analyses/z3_block_analysis.py:408-430`. -/
def finishIf (acc : Acc) (hasElse : Bool) (ver : Ver) (st : St) : Out × St :=
  if acc.always then (.ends, st)
  else
    let r := newVars acc hasElse ver acc.changed.eraseDups (ver, st)
    (.goes r.1 acc.changed.eraseDups acc.asserts, r.2)

section
variable (S : FoldSem Val) (isFloat : Val → Bool) (vs : Vars)

/-- `convert_condition_to_z3_expression(node, initialized_variables, None)[0]` -/
def condition (ver : Ver) (e : Expr) : Except PyErr (Option Fm) :=
  match convert S isFloat vs e true with
  | .error x => .error x
  | .ok none => .ok none
  | .ok (some t) => .ok (some (.term ver t))

/-- `convert_condition_to_z3_expression(node, initialized_variables, node.parent)[0]` for a `parent` that is an assignment or
a tuple. -/
def value (ver : Ver) (e : Expr) : Except PyErr (Option Vl) :=
  match convert S isFloat vs e false with
  | .error x => .error x
  | .ok none => .ok none
  | .ok (some t) => .ok (some (.term ver t))

/-- `_convert_expression_in_assignment_to_Z3`, `edulint/linting/analyses/z3_block_analysis.py:433-448` -/
def assigned (ver : Ver) : Expr → Except PyErr (Option Vl)
  | .ifExp t a b =>
    andSome (both (condition S isFloat vs ver t) (both (value S isFloat vs ver a) (value S isFloat vs ver b))) fun p =>
      .ok (some (.ite p.1 p.2.1 p.2.2))
  | e => value S isFloat vs ver e

/-- The loop of `_update_vars_after_assignment`, `edulint/linting/analyses/z3_block_analysis.py:495-518`: all values are
translated with the numbers `ver` from before. -/
def assignAll (ver : Ver) : List Target → List Expr → Ver → List Expr → St → Except PyErr (Option (Out × St))
  | [], _, ver', changed, st => .ok (some (.goes ver' changed [], st))
  | .other _ :: _, _, _, _, _ => .ok none
  | .name x :: ts, es, ver', changed, st =>
    if vs.lookup (.name x) = none then assignAll ver ts es.tail ver' changed st
    else
      match es with
      | [] => .error .indexError
      | e :: es =>
        andSome (assigned S isFloat vs ver e) fun v =>
          assignAll ver ts es (ver'.set (.name x) (st.cnt (.name x) + 1)) (changed ++ [.name x]) (st.bump (.name x) v)

/-- `_update_vars_after_assignment`, `edulint/linting/analyses/z3_block_analysis.py:478-518`, with
`_get_assigned_expression_in_AugAssign`, `edulint/linting/analyses/z3_block_analysis.py:451-475`. -/
def afterAssign (ver : Ver) (st : St) : Stmt → Except PyErr (Option (Out × St))
  | .assign t e => assignAll S isFloat vs ver [t] [e] ver [] st
  | .assigns ts e => assignAll S isFloat vs ver ts (children e) ver [] st
  | .aug (.name x) op e => assignAll S isFloat vs ver [.name x] [.bin op (.name x) e] ver [] st
  | .aug (.other _) _ _ => .ok none
  | _ => .ok (some (.goes ver [] [], st))

mutual
/-- One round of the loop of `_changed_vars_after_block`, `edulint/linting/analyses/z3_block_analysis.py:530-571`, with
`_changed_vars_after_if`, `edulint/linting/analyses/z3_block_analysis.py:331-430`. -/
def afterStmt : Stmt → Ver → St → Except PyErr (Option (Out × St))
  | .end_, _, st => .ok (some (.ends, st))
  | .if_ t b r, ver, st =>
    andSome (both (condition S isFloat vs ver t) (afterBlock b ver [] [] st)) fun co =>
      andSome (afterRest r ver (Acc.branch ⟨[], [], [], [], true⟩ co.1 co.2.1) co.2.2) fun p =>
        .ok (some (finishIf p.1 p.2.1 ver p.2.2))
  | .assert_ e, ver, st =>
    andSome (condition S isFloat vs ver e) fun c => .ok (some (.goes ver [] [c], st))
  | s, ver, st => afterAssign S isFloat vs ver st s

/-- `_changed_vars_after_block`, `edulint/linting/analyses/z3_block_analysis.py:521-573` -/
def afterBlock : Block → Ver → List Expr → List Fm → St → Except PyErr (Option (Out × St))
  | .nil, ver, changed, asserts, st => .ok (some (.goes ver changed asserts, st))
  | .cons s b, ver, changed, asserts, st =>
    andSome (afterStmt s ver st) fun o =>
      match o.1 with
      | .ends => .ok (some (.ends, o.2))
      | .goes ver' changed' asserts' => afterBlock b ver' (changed ++ changed') (asserts ++ asserts') o.2

/-- The branches after the first; whether there is an `else` comes with them. -/
def afterRest : Rest → Ver → Acc → St → Except PyErr (Option (Acc × Bool × St))
  | .none, _, acc, st => .ok (some ({ acc with always := false }, false, st))
  | .elif_ t b r, ver, acc, st =>
    andSome (both (condition S isFloat vs ver t) (afterBlock b ver [] [] st)) fun co =>
      afterRest r ver (acc.branch co.1 co.2.1) co.2.2
  | .else_ b, ver, acc, st =>
    andSome (afterBlock b ver [] [] st) fun o => .ok (some (acc.elseBranch o.1, true, o.2))
end

def conditions (ver : Ver) : List Expr → Except PyErr (Option (List Fm))
  | [] => .ok (some [])
  | e :: es =>
    andSome (condition S isFloat vs ver e) fun c =>
      andSome (conditions ver es) fun cs => .ok (some (c :: cs))

/-- `convert_conditions_with_blocks_after_each_to_Z3`, `edulint/linting/analyses/z3_block_analysis.py:576-629`: conditions,
each with the block that comes after them, and the last conditions. -/
def convertChain : List (List Expr × Block) → List Expr → Ver → St → Except PyErr (Option (List (List Fm) × St))
  | [], last, ver, st => andSome (conditions S isFloat vs ver last) fun cs => .ok (some ([cs], st))
  | (es, b) :: rest, last, ver, st =>
    andSome (conditions S isFloat vs ver es) fun cs =>
      andSome (afterBlock S isFloat vs b ver [] [] st) fun o =>
        match o.1 with
        | .ends => andSome (convertChain rest last ver o.2) fun r => .ok (some (cs :: r.1, r.2))
        | .goes ver' _ asserts =>
          andSome (convertChain rest last ver' ⟨o.2.cnt, o.2.rels ++ asserts⟩) fun r => .ok (some (cs :: r.1, r.2))

end

/-- Nothing was assigned to yet. -/
def start : St := ⟨fun _ => 0, []⟩

section
variable (S : FoldSem Val) (isFloat : Val → Bool) (guess : Expr → Option Types)
variable (pure modified mutableExpr : Expr → Bool) (mutableStmt : Stmt → Bool) (unsat : Fm → Bool)

/-- The nodes are admitted, `edulint/linting/analyses/z3_block_analysis.py:650-662`; `shared` is `block and condition1.parent
is block[0]`. -/
def initialized (shared : Bool) (c₁ : Expr) (b : Block) (c₂ : Expr) : Except PyErr (Bool × Vars) :=
  andThen (if shared then .ok (true, []) else validateExpr S isFloat guess pure modified mutableExpr c₁ []) fun vs =>
    andThen (validateStmts S isFloat guess pure modified mutableStmt b.toList vs) fun vs =>
      validateExpr S isFloat guess pure modified mutableExpr c₂ vs

/-- `condition_implies_another_with_block_in_between`, `edulint/linting/analyses/z3_block_analysis.py:632-670`, with `implies`,
`edulint/linting/analyses/z3_analysis.py:391-393`; `unsat` is what the solver says. -/
def impliedAfter (shared : Bool) (c₁ : Expr) (b : Block) (c₂ : Expr) : Except PyErr Bool :=
  match initialized S isFloat guess pure modified mutableExpr mutableStmt shared c₁ b c₂ with
  | .error x => .error x
  | .ok (false, _) => .ok false
  | .ok (true, vs) =>
    match convertChain S isFloat vs [([c₁], b)] [c₂] (fun _ => 0) start with
    | .error x => .error x
    | .ok (some ([[f], [g]], st)) => .ok (unsat (.and (conj st.rels) (.not (.imp f g))))
    | .ok _ => .ok false

end

/-! ### What the statements do -/

/-- Values of variables after a statement, or `stop` after `break`, `continue`, `raise` or `return`. -/
inductive Flow where
  | go (env : Env Val)
  | stop

def setVar (env : Env Val) (x : Str) (v : Val) : Env Val := fun y => if y = x then .ok v else env y

section
variable (S : Sem Val) (iter : Val → Except PyErr (List Val)) (effect : Nat → Env Val → Except PyErr (Env Val))
variable (other : Nat → Env Val → Except PyErr Flow)

/-- Assigning values to targets, from left to right. What assignments to other targets do to the variables is arbitrary. -/
def assignTargets : List Target → List Val → Env Val → Except PyErr (Env Val)
  | [], [], env => .ok env
  | .name x :: ts, v :: vals, env => assignTargets ts vals (setVar env x v)
  | .other n :: ts, _ :: vals, env =>
    match effect n env with
    | .error e => .error e
    | .ok env => assignTargets ts vals env
  | _, _, _ => .error .valueError

/-- The values of the elements of what is assigned to a tuple of targets. -/
def unpack (env : Env Val) : Expr → Except PyErr (List Val)
  | .other tag es =>
    if tag = "Tuple".toList then evalAll S env es
    else
      match eval S env (.other tag es) with
      | .error x => .error x
      | .ok v => iter v
  | e =>
    match eval S env e with
    | .error x => .error x
    | .ok v => iter v

def goOn : Except PyErr (Env Val) → Except PyErr Flow
  | .error x => .error x
  | .ok env => .ok (.go env)

mutual
/-- The Python language reference, sections 7.1-7.10 (simple statements) and 8.1 (`if`). Statements of other kinds do
anything. -/
def runStmt : Stmt → Env Val → Except PyErr Flow
  | .assign t e, env =>
    match eval S env e with
    | .error x => .error x
    | .ok v => goOn (assignTargets effect [t] [v] env)
  | .assigns ts e, env =>
    match unpack S iter env e with
    | .error x => .error x
    | .ok vals => goOn (assignTargets effect ts vals env)
  | .aug (.name x) op e, env =>
    match eval S env (.bin op (.name x) e) with
    | .error x => .error x
    | .ok v => .ok (.go (setVar env x v))
  | .aug (.other n) _ _, env => goOn (effect n env)
  | .expr e, env =>
    match eval S env e with
    | .error x => .error x
    | .ok _ => .ok (.go env)
  | .pass, env => .ok (.go env)
  | .assert_ e, env =>
    match truthOf S env e with
    | .error x => .error x
    | .ok true => .ok (.go env)
    | .ok false => .error .assertionError
  | .end_, _ => .ok .stop
  | .if_ t b r, env =>
    match truthOf S env t with
    | .error x => .error x
    | .ok true => runBlock b env
    | .ok false => runRest r env
  | .other n, env => other n env

def runBlock : Block → Env Val → Except PyErr Flow
  | .nil, env => .ok (.go env)
  | .cons s b, env =>
    match runStmt s env with
    | .error x => .error x
    | .ok .stop => .ok .stop
    | .ok (.go env) => runBlock b env

def runRest : Rest → Env Val → Except PyErr Flow
  | .none, env => .ok (.go env)
  | .elif_ t b r, env =>
    match truthOf S env t with
    | .error x => .error x
    | .ok true => runBlock b env
    | .ok false => runRest r env
  | .else_ b, env => runBlock b env
end

/-- A `while` loop, section 8.2 of the reference, for a number of rounds: `none` if it still goes on then. (`stop` is not
looked into: the loops in question have no `break`, `continue`, `raise` or `return`.) -/
def runWhile (c : Expr) (b : Block) : Nat → Env Val → Except PyErr (Option Flow)
  | 0, _ => .ok none
  | n + 1, env =>
    match truthOf S env c with
    | .error x => .error x
    | .ok false => .ok (some (.go env))
    | .ok true =>
      match runBlock S iter effect other b env with
      | .error x => .error x
      | .ok .stop => .ok (some .stop)
      | .ok (.go env) => runWhile c b n env

end

/-! ### Infinite loops -/

section
variable (exits : Nat → Bool)

mutual
/-- `contains_node_of_type_or_exit`, `edulint/linting/analyses/utils.py:339-340`, with the types of
`edulint/linting/checkers/unsuited_loop.py:238-240`. Calls of `exit` and `yield` are in expressions, which are not looked into
here: with them even fewer loops are reported. `exits` is for the statements of other kinds. -/
def Stmt.hasExit : Stmt → Bool
  | .end_ => true
  | .assert_ _ => true
  | .if_ _ b r => b.hasExit || r.hasExit
  | .other n => exits n
  | _ => false

def Block.hasExit : Block → Bool
  | .nil => false
  | .cons s b => s.hasExit || b.hasExit

def Rest.hasExit : Rest → Bool
  | .none => false
  | .elif_ _ b r => b.hasExit || r.hasExit
  | .else_ b => b.hasExit
end

variable (S : FoldSem Val) (isFloat : Val → Bool) (guess : Expr → Option Types)
variable (pure modified mutableExpr : Expr → Bool) (mutableStmt : Stmt → Bool) (unsat : Fm → Bool)

/-- `_check_infinite_loop`, `edulint/linting/checkers/unsuited_loop.py:237-249`, of `while c: b`: the message. `inTry` is
`is_in_try_block(node)`, `sat` is `sat_condition(node.test)`, and `changes` is
`vars_from_node_may_be_modified_in(node.test, node.body)`. -/
def infiniteLoop (inTry sat changes : Bool) (c : Expr) (b : Block) : Except PyErr (Option Str) :=
  if inTry || b.hasExit exits then .ok none
  else
    match constValue S c with
    | .error x => .error x
    | .ok v =>
      match v.map S.truth with
      | some (.ok true) => .ok (some "explicit-infinite-loop".toList)
      | _ =>
        if !sat then .ok none
        else if !changes then .ok (some "implicit-infinite-loop".toList)
        else
          match impliedAfter S isFloat guess pure modified mutableExpr mutableStmt unsat false c b c with
          | .error x => .error x
          | .ok false => .ok none
          | .ok true => .ok (some "implicit-infinite-loop".toList)

end

/-! ### Variables that are assigned to -/

def Target.names : Target → List Str
  | .name x => [x]
  | .other _ => []

mutual
def Stmt.targets : Stmt → List Str
  | .assign t _ => t.names
  | .assigns ts _ => ts.flatMap Target.names
  | .aug t _ _ => t.names
  | .if_ _ b r => b.targets ++ r.targets
  | _ => []

def Block.targets : Block → List Str
  | .nil => []
  | .cons s b => s.targets ++ b.targets

def Rest.targets : Rest → List Str
  | .none => []
  | .elif_ _ b r => b.targets ++ r.targets
  | .else_ b => b.targets
end

mutual
/-- The names in an expression. -/
def names : Expr → List Str
  | .const _ => []
  | .name x => [x]
  | .unary _ e => names e
  | .bin _ l r => names l ++ names r
  | .boolOp _ es => namesAll es
  | .compare l ops => names l ++ namesOps ops
  | .call f args => names f ++ namesAll args
  | .attr e _ => names e
  | .subscript e i => names e ++ names i
  | .ifExp t a b => names t ++ names a ++ names b
  | .other _ es => namesAll es

def namesAll : List Expr → List Str
  | [] => []
  | e :: es => names e ++ namesAll es

def namesOps : List (CmpOp × Expr) → List Str
  | [] => []
  | (_, e) :: es => names e ++ namesOps es
end

end Verif.Py.Blocks
