import Verif.Base.Str

/-!
Simplification of `if` statements with `elif`, `edulint/linting/checkers/simplifiable_if.py`.

Conditions of the solver are built of the translations of tests (`atom`) with `z3.Not`, `z3.And` and `z3.Or`; `imp` is
`implies`, `edulint/linting/analyses/z3_analysis.py:391-393`, any function of two conditions. A list of blocks is changed in
place by the program and is returned here; no list is used after a call that changed it.
-/

namespace Verif.Elif

/-- Conditions of the solver. -/
inductive Cond (α : Type) where
  | atom (a : α)
  | not (c : Cond α)
  | and (cs : List (Cond α))
  | or (cs : List (Cond α))

/-- A test and what `convert_condition_to_z3_expression` makes of it: of a test that is not `and` or `or`, or of each
operand. -/
inductive Test (α ν : Type) where
  | single (node : ν) (c : Option (Cond α))
  | boolOp (isOr : Bool) (operands : List (ν × Option (Cond α)))

/-- `IfBlock`, `edulint/linting/checkers/simplifiable_if.py:200-276`, without the body: the body is that of the branch
at `position` of the original statement. -/
structure Block (α ν : Type) where
  condition : Option (Cond α) := none
  negated : Option (Cond α) := none
  operands : List ν := []
  boolOps : List (Cond α) := []
  negatedOps : List (Cond α) := []
  isOr : Bool := false
  position : Nat

section
variable {α ν : Type}

/-- `set_all_to_default`, `edulint/linting/checkers/simplifiable_if.py:227-235` -/
def Block.default (b : Block α ν) : Block α ν := { position := b.position }

/-- All elements, if none is `None`. -/
def allSome : List (Option (Cond α)) → Option (List (Cond α))
  | [] => some []
  | none :: _ => none
  | some c :: cs =>
    match allSome cs with
    | none => none
    | some ds => some (c :: ds)

/-- `get_boolOp_as_condition`, `edulint/linting/checkers/simplifiable_if.py:181-182` -/
def boolOpCond (isOr : Bool) (cs : List (Cond α)) : Cond α := if isOr then .or cs else .and cs

/-- `IfBlock.__init__` and `_set_test_info`, `edulint/linting/checkers/simplifiable_if.py:201-225, 237-250` -/
def Block.ofTest (t : Test α ν) (position : Nat) : Block α ν :=
  match t with
  | .single node c =>
    { condition := c, negated := c.map .not, operands := [node], position := position }
  | .boolOp isOr operands =>
    match allSome (operands.map Prod.snd) with
    | none => { position := position }
    | some cs =>
      { condition := some (boolOpCond isOr cs), negated := some (.not (boolOpCond isOr cs)),
        operands := operands.map Prod.fst, boolOps := cs,
        negatedOps := if isOr then cs.map .not else [], isOr := isOr, position := position }

/-- `_decompose_if`, `edulint/linting/checkers/simplifiable_if.py:694-734`: the blocks from a position on. Nothing, if a
condition could not be translated. -/
def decompose : List (Test α ν) → Bool → Nat → Option (List (Block α ν))
  | [], hasElse, n => some (if hasElse then [{ position := n }] else [])
  | t :: ts, hasElse, n =>
    match (Block.ofTest t n).condition with
    | none => none
    | some _ =>
      match decompose ts hasElse (n + 1) with
      | none => none
      | some bs => some (Block.ofTest t n :: bs)

/-- `remove_elements_at_indeces`, `edulint/linting/checkers/simplifiable_if.py:60-61`, from an index on. -/
def removeAt {τ : Type} (remove : List Nat) : Nat → List τ → List τ
  | _, [] => []
  | i, x :: xs => if i ∈ remove then removeAt remove (i + 1) xs else x :: removeAt remove (i + 1) xs

/-- `remove_redundant_operands`, `edulint/linting/checkers/simplifiable_if.py:252-262` -/
def Block.removeOperands (b : Block α ν) (remove : List Nat) : Block α ν :=
  { b with
    operands := removeAt remove 0 b.operands
    boolOps := removeAt remove 0 b.boolOps
    negatedOps := removeAt remove 0 b.negatedOps
    condition := some (boolOpCond b.isOr (removeAt remove 0 b.boolOps))
    negated := some (.not (boolOpCond b.isOr (removeAt remove 0 b.boolOps))) }

variable (imp : Cond α → Cond α → Bool)

/-- `all_implied_indeces`, `edulint/linting/analyses/z3_analysis.py:406-415`, from an index on. -/
def impliedIndices (assumption : Cond α) : Nat → List (Cond α) → List Nat
  | _, [] => []
  | i, c :: cs =>
    if imp assumption c then i :: impliedIndices assumption (i + 1) cs else impliedIndices assumption (i + 1) cs

/-- `_condition_simplifications_under_assumption`, `edulint/linting/checkers/simplifiable_if.py:736-756`, and
`get_operands_by_operation`, `edulint/linting/checkers/simplifiable_if.py:267-268`. The solver does not accept `None`. -/
def simplifications (b : Block α ν) (assumption : Cond α) : Except PyErr (Option Bool × List Nat) :=
  match b.condition, b.negated with
  | some c, some n =>
    if imp assumption c then .ok (some true, [])
    else if imp assumption n then .ok (some false, [])
    else if b.operands.length > 1 then
      if (impliedIndices imp assumption 0 (if b.isOr then b.negatedOps else b.boolOps)).length = b.operands.length then
        .ok (some !b.isOr, [])
      else .ok (none, impliedIndices imp assumption 0 (if b.isOr then b.negatedOps else b.boolOps))
    else .ok (none, [])
  | _, _ => .error .valueError

/-- `_simplify_condition_at_index`, `edulint/linting/checkers/simplifiable_if.py:758-775` -/
def simplifyAt (bs : List (Block α ν)) (i : Nat) (always : Option Bool) (redundant : List Nat) :
    Except PyErr (List (Block α ν) × Bool) :=
  match always with
  | some true =>
    match bs[i]? with
    | none => .error .indexError
    | some b => .ok (bs.take i ++ [b.default], false)
  | some false => .ok (bs.eraseIdx i, true)
  | none =>
    if redundant = [] then .ok (bs, false)
    else
      match bs[i]? with
      | none => .error .indexError
      | some b => .ok (bs.set i (b.removeOperands redundant), false)

/-- `_get_elif_count`, `edulint/linting/checkers/simplifiable_if.py:777-778` -/
def elifCount (bs : List (Block α ν)) : Except PyErr Nat :=
  match bs.getLast? with
  | none => .error .indexError
  | some b => .ok (if b.condition.isNone then bs.length - 1 else bs.length)

variable (short : ν → Bool)

/-- The condition that is dropped from the last branch is so short that it is kept,
`edulint/linting/checkers/simplifiable_if.py:799-805`. -/
def kept (always : Option Bool) (b : Block α ν) : Bool :=
  match always, b.operands with
  | some true, [node] => short node
  | _, _ => false

/-- The loop of `_immediate_simplifications_for_if`, `edulint/linting/checkers/simplifiable_if.py:788-821`: the blocks,
whether something was simplified, and whether the last block is executed whenever it is reached. -/
def immediateLoop : Nat → List (Block α ν) → Nat → Cond α → Nat → Bool → Bool →
    Except PyErr (List (Block α ν) × Bool × Bool)
  | 0, _, _, _, _, _, _ => .error .recursionError
  | fuel + 1, bs, i, previous, count, made, hasElse =>
    if i < count then
      match bs[i]? with
      | none => .error .indexError
      | some b =>
        match simplifications imp b previous with
        | .error x => .error x
        | .ok (always, redundant) =>
          if always.isSome ∨ redundant ≠ [] then
            if kept short always b then
              -- the loop ends: the block is the last one
              .ok (bs.take (i + 1), true, true)
            else
              match simplifyAt bs i always redundant with
              | .error x => .error x
              | .ok (bs', deleted) =>
                match bs'[i]? with
                | none => .ok (bs', true, hasElse)
                | some b' =>
                  match b'.condition, b'.negated with
                  | some _, some n =>
                    match (if always.isSome then elifCount bs' else .ok count) with
                    | .error x => .error x
                    | .ok count' =>
                      if deleted then immediateLoop fuel bs' i previous count' true hasElse
                      else immediateLoop fuel bs' (i + 1) (.and [previous, n]) count' true hasElse
                  | none, _ => .ok (bs', true, hasElse)
                  | _, _ => .error .valueError
          else
            match b.condition, b.negated with
            | some _, some n => immediateLoop fuel bs (i + 1) (.and [previous, n]) count made hasElse
            | none, _ => .ok (bs, made, hasElse)
            | _, _ => .error .valueError
    else .ok (bs, made, hasElse)

/-- `_immediate_simplifications_for_if`, `edulint/linting/checkers/simplifiable_if.py:780-827` -/
def immediate (bs : List (Block α ν)) : Except PyErr (List (Block α ν) × Bool × Bool) :=
  match bs with
  | [] => .error .indexError
  | b :: _ =>
    match b.negated, elifCount bs with
    | some n, .ok count =>
      match immediateLoop imp short (bs.length + 1) bs 1 n count false false with
      | .error x => .error x
      | .ok (bs', made, hasElse) =>
        match bs'.getLast? with
        | none => .error .indexError
        | some b => .ok (bs', made, b.condition.isNone || hasElse)
    | _, .error x => .error x
    | none, _ => .error .valueError

/-- `_convert_else_to_elif_when_simple_enough`, `edulint/linting/checkers/simplifiable_if.py:667-692`: the
condition of the last block is one of `simple`, the comparisons of the two variables and their nodes. -/
def convertElse (simple : List (Cond α × ν)) (bs : List (Block α ν)) : Except PyErr (List (Block α ν)) :=
  if simple = [] then .ok bs
  else
    match bs.getLast?, allSome (bs.dropLast.map Block.negated) with
    | some b, some ns =>
      match simple.find? (fun s => imp (.and ns) s.1 && imp s.1 (.and ns)) with
      | none => .ok bs
      | some s =>
        .ok (bs.dropLast ++ [{ b with condition := some s.1, negated := some (.not s.1), operands := [s.2] }])
    | _, _ => .error .valueError

/-- `_is_valid_move_up`, `edulint/linting/checkers/simplifiable_if.py:829-840` -/
def validMove (bs : List (Block α ν)) (block goal : Nat) (before : Cond α) : Except PyErr Bool :=
  match bs[block]? with
  | none => .error .indexError
  | some b =>
    match b.condition, allSome (((bs.take block).drop goal).map Block.negated) with
    | some c, some ns => .ok (imp (.and [before, c]) (.and ns))
    | _, _ => .error .valueError

/-- The loop of `_first_movable_block_for_simplification`, `edulint/linting/checkers/simplifiable_if.py:849-867`: `n`
blocks from `block` on. -/
def movableFrom (bs : List (Block α ν)) (current : Nat) (before : Cond α) :
    Nat → Nat → Except PyErr (Option (Nat × Option Bool × List Nat))
  | 0, _ => .ok none
  | n + 1, block =>
    match validMove imp bs block current before with
    | .error x => .error x
    | .ok false => movableFrom bs current before n (block + 1)
    | .ok true =>
      match bs[current]?, (bs[block]?).bind Block.negated with
      | some b, some neg =>
        match simplifications imp b (.and [before, neg]) with
        | .error x => .error x
        | .ok (always, redundant) =>
          if always.isSome ∨ redundant ≠ [] then .ok (some (block, always, redundant))
          else movableFrom bs current before n (block + 1)
      | _, _ => .error .valueError

/-- `_first_movable_block_for_simplification`, `edulint/linting/checkers/simplifiable_if.py:842-867` -/
def firstMovable (bs : List (Block α ν)) (current count : Nat) :
    Except PyErr (Option (Nat × Option Bool × List Nat)) :=
  match allSome ((bs.take current).map Block.negated) with
  | none => .error .valueError
  | some ns => movableFrom imp bs current (.and ns) (count - (current + 1)) (current + 1)

/-- `_move_block`, `edulint/linting/checkers/simplifiable_if.py:869-870` -/
def moveBlock (bs : List (Block α ν)) (goal block : Nat) : Except PyErr (List (Block α ν)) :=
  match bs[block]? with
  | none => .error .indexError
  | some b => .ok ((bs.eraseIdx block).take goal ++ b :: (bs.eraseIdx block).drop goal)

/-- `_would_simplify_less_than_leaving_be`, `edulint/linting/checkers/simplifiable_if.py:872-880` -/
def leaveBe (bs : List (Block α ν)) (hasElse : Bool) (current : Nat) : Bool :=
  match bs[current]?, bs[current + 1]? with
  | some b, some b' => hasElse && decide (current + 2 = bs.length) && decide (b.operands.length ≤ b'.operands.length)
  | _, _ => false

mutual
/-- `_simplify_if_by_moving_conditions_up`, `edulint/linting/checkers/simplifiable_if.py:882-951`: the blocks at `start`,
…, `start + n - 1`, from the last one, with `count` as `elif_count`. -/
def moveUp (hasElse : Bool) : Nat → List (Block α ν) → Nat → Nat → Nat → Bool → Except PyErr (List (Block α ν) × Bool)
  | 0, _, _, _, _, _ => .error .recursionError
  | _ + 1, bs, _, _, 0, made => .ok (bs, made)
  | fuel + 1, bs, count, start, n + 1, made =>
    if leaveBe bs hasElse (start + n) then moveUp hasElse fuel bs count start n made
    else
      match firstMovable imp bs (start + n) count with
      | .error x => .error x
      | .ok none => moveUp hasElse fuel bs count start n made
      | .ok (some m) =>
        match moveMany hasElse fuel bs count (start + n) m with
        | .error x => .error x
        | .ok (bs', count') => moveUp hasElse fuel bs' count' start n true

/-- The inner loop, `edulint/linting/checkers/simplifiable_if.py:906-947`: blocks are moved before the block at
`current`. -/
def moveMany (hasElse : Bool) : Nat → List (Block α ν) → Nat → Nat → Nat × Option Bool × List Nat →
    Except PyErr (List (Block α ν) × Nat)
  | 0, _, _, _, _ => .error .recursionError
  | fuel + 1, bs, count, current, (block, always, redundant) =>
    match moveBlock bs current block with
    | .error x => .error x
    | .ok bs1 =>
      match simplifyAt bs1 (current + 1) always redundant with
      | .error x => .error x
      | .ok (bs2, deleted) =>
        match (if always.isSome then elifCount bs2 else .ok count) with
        | .error x => .error x
        | .ok count2 =>
          if bs2.length = current + 2 then .ok (bs2, count2)
          else if deleted then
            match moveUp hasElse fuel bs2 count2 (current + 1) (block - (current + 1)) false with
            | .error x => .error x
            | .ok (bs3, _) => .ok (bs3, count2)
          else
            match moveUp hasElse fuel bs2 count2 (current + 2) (block + 1 - (current + 2)) false with
            | .error x => .error x
            | .ok (bs3, _) =>
              match firstMovable imp bs3 (current + 1) count2 with
              | .error x => .error x
              | .ok none => .ok (bs3, count2)
              | .ok (some m) => moveMany hasElse fuel bs3 count2 (current + 1) m
end

/-- What is reported about an `if` statement; the branches are counted from 1. -/
inductive Report (ν : Type) where
  /-- `redundant-condition-part-in-elif-reorder`: the positions of the branches and their tests, or `else`. -/
  | reorder (order : List (Nat × Option (Bool × List ν)))
  /-- `condition-always-true-in-elif` -/
  | alwaysTrue (branch : Nat)
  /-- `redundant-condition-part-in-elif` -/
  | redundant (branch : Nat) (isOr : Bool) (operands : List ν)
  /-- `condition-always-false-in-elif` -/
  | alwaysFalse (branch : Nat)
  /-- `unreachable-elif-else` -/
  | unreachable (branch : Nat)
deriving DecidableEq

/-- `_give_suggestion_for_changed_order_in_if`, `edulint/linting/checkers/simplifiable_if.py:953-970` -/
def changedOrder (bs : List (Block α ν)) : Report ν :=
  .reorder (bs.map fun b => (b.position, b.condition.map fun _ => (b.isOr, b.operands)))

/-- The number of operands of a test that is `and` or `or`. -/
def Test.size : Test α ν → Nat
  | .single _ _ => 0
  | .boolOp _ operands => operands.length

/-- `_give_suggestion_for_same_order_in_if`, `edulint/linting/checkers/simplifiable_if.py:972-1013`: of the branches from `n`
on and the blocks that remain; `lastIsElse` is that the condition of the last block is `None`. -/
def sameOrder (lastIsElse hasElse : Bool) : List (Test α ν) → Nat → List (Block α ν) → List (Report ν)
  | [], n, bs => if bs = [] ∧ hasElse then [.unreachable n] else []
  | t :: ts, n, b :: bs =>
    if n = b.position then
      (if b.condition.isNone then [.alwaysTrue n]
        else if t.size > b.operands.length then [.redundant n b.isOr b.operands] else []) ++
        sameOrder lastIsElse hasElse ts (n + 1) bs
    else .alwaysFalse n :: sameOrder lastIsElse hasElse ts (n + 1) (b :: bs)
  | _ :: ts, n, [] =>
    (if lastIsElse then .unreachable n else .alwaysFalse n) :: sameOrder lastIsElse hasElse ts (n + 1) []

/-- The last block is `else`, `edulint/linting/checkers/simplifiable_if.py:1087-1088`. -/
def lastElse (hasElse : Bool) (bs : List (Block α ν)) : List (Block α ν) :=
  match hasElse, bs.getLast? with
  | true, some b => bs.dropLast ++ [{ b with condition := none }]
  | _, _ => bs

/-- `_check_for_redundant_condition_part_in_if`, `edulint/linting/checkers/simplifiable_if.py:1041-1093`, once the variables
are initialized: the reports for a statement with the given tests and perhaps `else`. The fuel is enough, see
`checkIf_fuel`. -/
def checkIf (simple : List (Cond α × ν)) (skipReordering : Bool) (ts : List (Test α ν)) (hasElse : Bool) :
    Except PyErr (List (Report ν)) :=
  match decompose ts hasElse 1 with
  | none | some [] => .ok []
  | some bs =>
    match immediate imp short bs with
    | .error x => .error x
    | .ok (bs1, made, else1) =>
      if skipReordering then
        .ok (if made then
          sameOrder ((lastElse else1 bs1).getLast?.any fun b => b.condition.isNone) hasElse ts 1 (lastElse else1 bs1)
          else [])
      else
        match (if bs1.getLast?.any (fun b => b.condition.isNone) then convertElse imp simple bs1 else .ok bs1) with
        | .error x => .error x
        | .ok bs2 =>
          match elifCount bs2 with
          | .error x => .error x
          | .ok count =>
            match moveUp imp else1 ((bs2.length + 3) ^ 2) bs2 count 0 (count - 1) false with
            | .error x => .error x
            | .ok (bs3, moved) =>
              .ok (if moved then [changedOrder (lastElse else1 bs3)]
                else if made then
                  sameOrder ((lastElse else1 bs3).getLast?.any fun b => b.condition.isNone) hasElse ts 1
                    (lastElse else1 bs3)
                else [])

end

end Verif.Elif
