import Verif.Model.Z3Block

/-!
Consecutive `if`s that could be one, `use-if-elif-else` and `use-if-elif-else-modifying`,
`edulint/linting/checkers/simplifiable_if.py:1095-1341`.

What other parts of EduLint are asked is given, as in `Verif.Model.Z3Block`; whether variables of an expression are modified
is asked with the statements it is about.
-/

namespace Verif.Py.Blocks

/-- An `if` statement. -/
structure If where
  test : Expr
  body : Block
  rest : Rest

def If.stmt (i : If) : Stmt := .if_ i.test i.body i.rest

def Block.ofList : List Stmt → Block
  | [] => .nil
  | s :: ss => .cons s (Block.ofList ss)

/-- `_get_all_consecutive_ifs`, `edulint/linting/checkers/simplifiable_if.py:1095-1101`, of an `if` and what comes after it. -/
def consecutiveIfs : List Stmt → List If
  | .if_ t b r :: ss => ⟨t, b, r⟩ :: consecutiveIfs ss
  | _ => []

def Rest.tests : Rest → List Expr
  | .elif_ t _ r => t :: r.tests
  | _ => []

/-- `_get_list_of_test_conditions`, `edulint/linting/checkers/simplifiable_if.py:1285-1296` -/
def If.tests (i : If) : List Expr := i.test :: i.rest.tests

/-- `if_elif_has_else_block`, `edulint/linting/analyses/utils.py:488-492` -/
def Rest.hasElse : Rest → Bool
  | .none => false
  | .elif_ _ _ r => r.hasElse
  | .else_ _ => true

section
variable (ends : Nat → Bool)

mutual
/-- `contains_node_of_type(node, END_NODES)`, `edulint/linting/analyses/utils.py:335-336`; `ends` is for the statements of other
kinds. -/
def Stmt.hasEnd : Stmt → Bool
  | .end_ => true
  | .if_ _ b r => b.hasEnd || r.hasEnd
  | .other n => ends n
  | _ => false

def Block.hasEnd : Block → Bool
  | .nil => false
  | .cons s b => s.hasEnd || b.hasEnd

def Rest.hasEnd : Rest → Bool
  | .none => false
  | .elif_ _ b r => b.hasEnd || r.hasEnd
  | .else_ b => b.hasEnd
end

variable (S : FoldSem Val) (isFloat : Val → Bool) (guess : Expr → Option Types) (pure : Expr → Bool)
variable (modified mayModify : List If → Expr → Bool) (mutableStmt : Stmt → Bool) (unsat : Fm → Bool)

/-! ### What is known of the conditions -/

/-- The `if`s from `start_index` on that are admitted, `edulint/linting/checkers/simplifiable_if.py:1124-1136`: how many there
are, the variables of the solver for them, and all variables: those of the `if` that was not admitted stay in the
dictionary. -/
def admit : List If → Vars → Except PyErr (Nat × Vars × Vars)
  | [], vs => .ok (0, vs, vs)
  | i :: is, vs =>
    if i.rest.hasElse then .ok (0, vs, vs)
    else
      match validateStmt S isFloat guess pure (modified (i :: is)) mutableStmt i.stmt vs with
      | .error x => .error x
      | .ok (false, vs') => .ok (0, vs, vs')
      | .ok (true, vs') =>
        match admit is vs' with
        | .error x => .error x
        | .ok (n, r) => .ok (n + 1, r)

/-- The arguments of `convert_conditions_with_blocks_after_each_to_Z3`,
`edulint/linting/checkers/simplifiable_if.py:1143-1147`: every `if` but the last is the block after its conditions. -/
def stages : List If → List (List Expr × Block) × List Expr
  | [] => ([], [])
  | [i] => ([], i.tests)
  | i :: j :: is => ((i.tests, .cons i.stmt .nil) :: (stages (j :: is)).1, (stages (j :: is)).2)

/-- `_get_most_consecutive_ifs_suitable_for_z3_block_analysis`, `edulint/linting/checkers/simplifiable_if.py:1121-1152`, of the
`if`s from `start_index` on. -/
def blockConditions (ifs : List If) : Except PyErr (Fm × List (List Fm)) :=
  match admit S isFloat guess pure modified mutableStmt ifs [] with
  | .error x => .error x
  | .ok (n, _, vs) =>
    if n ≤ 1 then .ok (.tt, [])
    else
      match convertChain S isFloat vs (stages (ifs.take n)).1 (stages (ifs.take n)).2 (fun _ => 0) start with
      | .error x => .error x
      | .ok none => .ok (.tt, [])
      | .ok (some (cs, st)) => .ok (conj st.rels, cs)

/-- The loop over the conditions of an `if`, `edulint/linting/checkers/simplifiable_if.py:1165-1173`; `context` is
`consecutive_ifs[i:-1]`. -/
def initTests (context : List If) : List Expr → Vars → Except PyErr (Bool × Vars)
  | [], vs => .ok (true, vs)
  | e :: es, vs =>
    if mayModify context e || !pure e then .ok (false, vs)
    else andThen (initVars S isFloat guess false e false true vs) (initTests context es)

/-- The `if`s from `start_index` on whose conditions are not modified, `edulint/linting/checkers/simplifiable_if.py:1157-1181`:
how many there are, the variables of the solver for them, and all. -/
def admitUnmodified : List If → Vars → Except PyErr (Nat × Vars × Vars)
  | [], vs => .ok (0, vs, vs)
  | i :: is, vs =>
    if i.rest.hasElse || i.stmt.hasEnd ends then .ok (0, vs, vs)
    else
      match initTests S isFloat guess pure mayModify (i :: is).dropLast i.tests vs with
      | .error x => .error x
      | .ok (false, vs') => .ok (0, vs, vs')
      | .ok (true, vs') =>
        match admitUnmodified is vs' with
        | .error x => .error x
        | .ok (n, r) => .ok (n + 1, r)

/-- The conditions of each `if`, `edulint/linting/checkers/simplifiable_if.py:1186-1198`. -/
def convertTests (vs : Vars) : List If → Except PyErr (Option (List (List Fm)))
  | [] => .ok (some [])
  | i :: is =>
    andSome (conditions S isFloat vs (fun _ => 0) i.tests) fun c =>
      andSome (convertTests vs is) fun cs => .ok (some (c :: cs))

/-- `_get_most_consecutive_ifs_without_var_modification`, `edulint/linting/checkers/simplifiable_if.py:1154-1198`, of the `if`s
from `start_index` on. -/
def unmodifiedConditions (ifs : List If) : Except PyErr (Option (List (List Fm))) :=
  match admitUnmodified ends S isFloat guess pure mayModify ifs [] with
  | .error x => .error x
  | .ok (n, _, vs) => if n ≤ 1 then .ok (some []) else convertTests S isFloat vs (ifs.take n)

/-! ### What is merged -/

/-- `can_merge_ifs_together`, `edulint/linting/checkers/simplifiable_if.py:1298-1322`, with `implies`,
`edulint/linting/analyses/z3_analysis.py:391-393`; `before` is `not_true_conditions`. (For one condition there is no `z3.And`
around the negation, which does not matter.) -/
def canMerge (rels : Fm) (c₂ : List Fm) : List Fm → List Fm → Bool
  | _, [] => true
  | before, c :: c₁ =>
    unsat (.and rels (.not (disj (.not c :: before ++ [conj (c₂.map .not)])))) && canMerge rels c₂ (before ++ [c]) c₁

/-- How many of the conditions can be merged, one after another, with those that are merged already. -/
def countFrom (rels : Fm) : List Fm → List (List Fm) → Nat
  | _, [] => 0
  | merged, c :: cs => if canMerge unsat rels c [] merged then countFrom rels (merged ++ c) cs + 1 else 0

/-- `_count_of_mergeable_consecutive_ifs`, `edulint/linting/checkers/simplifiable_if.py:1103-1119`. The list at the index is
extended in place there; it is not used again, since what comes next starts after the `if`s that were merged. -/
def count (rels : Fm) (conds : List (List Fm)) (index : Nat) : Nat :=
  match conds.drop index with
  | [] => 1
  | c :: cs => countFrom unsat rels c cs + 1

/-- A message: the index of the `if`, whether it is `use-if-elif-else-modifying`, and how many `if`s are to be merged with
it. -/
structure Report where
  index : Nat
  modifying : Bool
  more : Nat

/-- `_test_conditions_might_be_modified`, `edulint/linting/checkers/simplifiable_if.py:1324-1330` -/
def testsModified (ifs : List If) : Bool := ifs.any fun i => i.tests.any (mayModify ifs)

/-- The conditions of the first strategy, with the index in them that corresponds to `i`,
`edulint/linting/checkers/simplifiable_if.py:1219-1225`. -/
def nextBlocks (ifs : List If) (i : Nat) (z : (Fm × List (List Fm)) × Nat) : Except PyErr ((Fm × List (List Fm)) × Nat) :=
  if z.1.2.length ≤ z.2 then
    match blockConditions S isFloat guess pure modified mutableStmt (ifs.drop i) with
    | .error x => .error x
    | .ok c => .ok (c, 0)
  else .ok z

/-- The conditions of the second strategy, `edulint/linting/checkers/simplifiable_if.py:1234-1238`. -/
def nextUnmodified (ifs : List If) (i : Nat) (u : List (List Fm) × Nat) : Except PyErr (Option (List (List Fm) × Nat)) :=
  if u.1.length ≤ u.2 then
    match unmodifiedConditions ends S isFloat guess pure mayModify (ifs.drop i) with
    | .error x => .error x
    | .ok none => .ok none
    | .ok (some c) => .ok (some (c, 0))
  else .ok (some u)

/-- The loop of `_report_all_mergeable_consecutive_ifs`, `edulint/linting/checkers/simplifiable_if.py:1216-1283`, for a number of
rounds. -/
def reportFrom (ifs : List If) : Nat → Nat → (Fm × List (List Fm)) × Nat → List (List Fm) × Nat → Except PyErr (List Report)
  | 0, _, _, _ => .ok []
  | rounds + 1, i, z, u =>
    if ifs.length ≤ i then .ok []
    else
      match nextBlocks S isFloat guess pure modified mutableStmt ifs i z with
      | .error x => .error x
      | .ok z =>
        match nextUnmodified ends S isFloat guess pure mayModify ifs i u with
        | .error x => .error x
        | .ok none => .ok []
        | .ok (some u) =>
          let n := count unsat z.1.1 z.1.2 z.2
          let m := count unsat .tt u.1 u.2
          if m < n then
            match reportFrom ifs rounds (i + n) (z.1, z.2 + n) (u.1, u.2 + n) with
            | .error x => .error x
            | .ok rs => .ok (⟨i, testsModified mayModify ((ifs.drop i).take (n - 1)), n - 1⟩ :: rs)
          else
            match reportFrom ifs rounds (i + m) (z.1, z.2 + m) (u.1, u.2 + m) with
            | .error x => .error x
            | .ok rs => .ok (if 1 < m then ⟨i, false, m - 1⟩ :: rs else rs)

/-- `_check_for_use_if_elif_else`, `edulint/linting/checkers/simplifiable_if.py:1332-1341`, with
`_report_all_mergeable_consecutive_ifs`, `edulint/linting/checkers/simplifiable_if.py:1200-1283`, of an `if` (the first of `ss`)
and the statements after it; `afterIf` is whether there is an `if` before it. As every round takes at least one `if`, there
are not more rounds than `if`s. -/
def useIfElifElse (afterIf : Bool) (ss : List Stmt) : Except PyErr (List Report) :=
  if afterIf then .ok []
  else if (consecutiveIfs ss).length < 2 then .ok []
  else
    reportFrom ends S isFloat guess pure modified mayModify mutableStmt unsat (consecutiveIfs ss) (consecutiveIfs ss).length 0
      ((.tt, []), 0) ([], 0)

end

/-! ### The suggested program -/

/-- `elif`s after those that are there. -/
def Rest.append : Rest → Rest → Rest
  | .none, r => r
  | .elif_ t b r', r => .elif_ t b (r'.append r)
  | .else_ b, _ => .else_ b

def mergedRest : List If → Rest
  | [] => .none
  | i :: is => .elif_ i.test i.body (i.rest.append (mergedRest is))

/-- `if`s merged into one: their branches after each other. -/
def merged : List If → List Stmt
  | [] => []
  | i :: is => [.if_ i.test i.body (i.rest.append (mergedRest is))]

/-- The statements with what is reported done: `more + 1` of the `if`s from the index on are merged. -/
def Report.apply (r : Report) (ifs : List If) : List Stmt :=
  (ifs.take r.index).map If.stmt ++ merged ((ifs.drop r.index).take (r.more + 1)) ++
    (ifs.drop (r.index + (r.more + 1))).map If.stmt

end Verif.Py.Blocks
