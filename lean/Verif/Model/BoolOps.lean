import Verif.Model.ConstValue

/-!
Suggestions for conditions that are joined by `and` and `or`, `edulint/linting/checkers/simplifiable_if.py:1406-2290`: comparisons with
numbers, comparisons that `max` or `min` can join, and comparisons of remainders. What the solver is used for is in
`Verif.Model.BoolParts`.

Texts of expressions are compared as trees. Infinite numbers and `nan` are not modelled, so that numbers are rational.
-/

namespace Verif.Py.BoolOps

/-- What is used of Python's numbers. `isNumber` (of `FoldSem`) is true for instances of `int` and `float`, which includes `bool`. -/
structure NumSem (V : Type) extends FoldSem V where
  /-- the number that a value is -/
  num : V → Option Rat
  /-- `isinstance(v, bool)` -/
  isBool : V → Bool
  /-- `isinstance(v, int)` -/
  isInt : V → Bool
  /-- `str(v)` -/
  shown : V → List Tok

mutual
/-- `is_pure_expression`, `edulint/linting/analyses/utils.py:184-229`. `builtin` tells if a function is one of Python's that are pure
(`is_pure_builtin`, which depends on what `astroid` infers), and `display` if an expression of another kind is a list, set, dictionary,
tuple or slice. Conditional expressions are not pure. Calls have neither keywords nor stars. -/
def isPure (builtin : Expr → Bool) (display : Str → Bool) : Expr → Bool
  | .const _ | .name _ => true
  | .unary _ e => isPure builtin display e
  | .bin _ l r => isPure builtin display l && isPure builtin display r
  | .boolOp _ vs => allPure builtin display vs
  | .compare l ops => isPure builtin display l && opsPure builtin display ops
  | .call f as => builtin f && allPure builtin display as
  | .attr e _ => isPure builtin display e
  | .subscript e i => isPure builtin display e && isPure builtin display i
  | .ifExp _ _ _ => false
  | .other t es => display t && allPure builtin display es

def allPure (builtin : Expr → Bool) (display : Str → Bool) : List Expr → Bool
  | [] => true
  | e :: es => isPure builtin display e && allPure builtin display es

def opsPure (builtin : Expr → Bool) (display : Str → Bool) : List (CmpOp × Expr) → Bool
  | [] => true
  | (_, e) :: es => isPure builtin display e && opsPure builtin display es
end

section
variable {V : Type} (S : NumSem V)

/-- The number that a constant is. -/
def NumSem.val (v : V) : Rat := (S.num v).getD 0

/-- The value of a node that is a number: `is_number` and `get_const_value`, `edulint/linting/analyses/utils.py:232-234`. -/
def number (e : Expr) : Except PyErr (Option V) :=
  match constValue S.toFoldSem e with
  | .error x => .error x
  | .ok none => .ok none
  | .ok (some v) => .ok (if S.isNumber v && !S.isBool v then some v else none)

/-! ### Comparisons with numbers -/

/-- `comp in self.SWITCHED_COMPARATOR` -/
def isOrder : CmpOp → Bool
  | .lt | .le | .ge | .gt => true
  | _ => false

/-- `SWITCHED_COMPARATOR`, `edulint/linting/checkers/simplifiable_if.py:1406-1411`; looked up only for the comparisons that it has. -/
def switched : CmpOp → CmpOp
  | .ge => .le
  | .gt => .lt
  | .le => .ge
  | .lt => .gt
  | op => op

/-- `len(cmp)`, where it matters. -/
def symbols : CmpOp → Nat
  | .lt | .gt => 1
  | _ => 2

/-- `cmp[0] == "<"` -/
def isLess : CmpOp → Bool
  | .lt | .le => true
  | _ => false

/-- `_get_node_comparator_const_value`, `edulint/linting/checkers/simplifiable_if.py:1424-1451` -/
def operandOf : Expr → Except PyErr (Option (Expr × CmpOp × V))
  | .compare left [(op, right)] =>
    match number S left with
    | .error x => .error x
    | .ok l =>
      match number S right with
      | .error x => .error x
      | .ok r =>
        match l, r with
        | some v, none => .ok (if isOrder op then some (right, switched op, v) else none)
        | none, some v => .ok (if isOrder op then some (left, op, v) else none)
        | _, _ => .ok none
  | _ => .ok none

/-- `_get_comparator_by_restriction`, `edulint/linting/checkers/simplifiable_if.py:1453-1457` -/
def byRestriction (cmp1 cmp2 : CmpOp) (moreRestrictive : Bool) : CmpOp :=
  if symbols cmp2 < symbols cmp1 then (if moreRestrictive then cmp2 else cmp1) else (if moreRestrictive then cmp1 else cmp2)

/-- `_remove_redundant_compare`, `edulint/linting/checkers/simplifiable_if.py:1459-1484`, after the constants have been put in order. -/
def ofOrdered (low high : CmpOp × V) (isAnd : Bool) : CmpOp × V :=
  if low.1 = .gt ∨ low.1 = .ge then (if isAnd then high else low) else (if isAnd then low else high)

/-- `_remove_redundant_compare`, `edulint/linting/checkers/simplifiable_if.py:1459-1484` -/
def removeRedundant (a b : CmpOp × V) (isAnd : Bool) : CmpOp × V :=
  if S.val a.2 = S.val b.2 then (byRestriction a.1 b.1 isAnd, a.2)
  else if S.val b.2 < S.val a.2 then ofOrdered b a isAnd
  else ofOrdered a b isAnd

/-- `expr_string.startswith("abs(")` and the like, for the name of a function. -/
def startsWith (f : Str) : List Tok → Bool
  | .ident x :: .sym s :: _ => x == f && s == "("
  | _ => false

/-- `_add_abs_if_necessary`, `edulint/linting/checkers/simplifiable_if.py:1486-1490` -/
def addAbs (t : List Tok) : List Tok :=
  if startsWith "abs".toList t then t else .ident "abs".toList :: .sym "(" :: (t ++ [.sym ")"])

/-- The texts `True` and `False`. -/
def boolText (b : Bool) : List Tok := [.lit (.bool b)]

/-- `_check_for_simplification_of_single_or`, `edulint/linting/checkers/simplifiable_if.py:1492-1516` -/
def singleOr (a b : CmpOp × V) (t : List Tok) : List Tok :=
  if a.1 = .ge ∨ a.1 = .gt then (if 0 < S.val a.2 then addAbs t ++ (a.1.toks ++ S.shown a.2) else boolText true)
  else (if S.val a.2 < 0 then addAbs t ++ (b.1.toks ++ S.shown b.2) else boolText true)

/-- `_check_for_simplification_of_single_and`, `edulint/linting/checkers/simplifiable_if.py:1518-1543` -/
def singleAnd (a b : CmpOp × V) (t : List Tok) : List Tok :=
  if a.1 = .ge ∨ a.1 = .gt then (if S.val a.2 < 0 then addAbs t ++ (b.1.toks ++ S.shown b.2) else boolText false)
  else (if 0 < S.val a.2 then addAbs t ++ (a.1.toks ++ S.shown a.2) else boolText false)

/-- `_check_if_always_true_or_false`, `edulint/linting/checkers/simplifiable_if.py:1545-1570`; nothing stands for the empty text. -/
def alwaysText (a b : CmpOp × V) (t : List Tok) (isOr : Bool) : Option (List Tok) :=
  if S.val a.2 = S.val b.2 then
    some (if symbols a.1 = 1 ∧ symbols b.1 = 1 ∧ isOr = true then t ++ (CmpOp.toks .ne ++ S.shown a.2)
      else if symbols a.1 = 2 ∧ symbols b.1 = 2 ∧ isOr = false then t ++ (CmpOp.toks .eq ++ S.shown a.2)
      else if isOr then boolText true else boolText false)
  else if isOr = false ∧ ((S.val a.2 < S.val b.2 ∧ isLess a.1 = true) ∨ (S.val b.2 < S.val a.2 ∧ isLess b.1 = true)) then some (boolText false)
  else if isOr = true ∧ ((S.val a.2 < S.val b.2 ∧ isLess a.1 = false) ∨ (S.val b.2 < S.val a.2 ∧ isLess b.1 = false)) then some (boolText true)
  else none

/-- `_get_group_as_string`, `edulint/linting/checkers/simplifiable_if.py:1572-1583` -/
def groupText (t : List Tok) (isOr : Bool) : List (CmpOp × V) → List Tok
  | [] => []
  | [c] => t ++ (c.1.toks ++ S.shown c.2)
  | c :: c' :: cs => t ++ (c.1.toks ++ S.shown c.2) ++ boolTok isOr :: groupText t isOr (c' :: cs)

/-- The messages. -/
inductive Kind where
  /-- `redundant-compare-in-condition` -/
  | redundant
  /-- `using-compare-instead-of-equal` -/
  | equal
  /-- `simplifiable-with-abs` -/
  | abs
  /-- `simplifiable-test-by-equals` -/
  | byEquals
  /-- `redundant-compare-avoidable-with-max-min` -/
  | maxMin
  deriving DecidableEq

/-- A message with its arguments. -/
structure Msg where
  kind : Kind
  original : List Tok
  suggestion : List Tok
  deriving DecidableEq

/-- The state of the loop of `_suggestion_for_group_of_boolops`. -/
structure Bounds (V : Type) where
  less : Option (CmpOp × V)
  greater : Option (CmpOp × V)
  changed : Bool

/-- The body of the loop, `edulint/linting/checkers/simplifiable_if.py:1594-1610`. -/
def bound (isAnd : Bool) (s : Bounds V) (c : CmpOp × V) : Bounds V :=
  if isLess c.1 then
    match s.less with
    | none => { s with less := some c }
    | some a => { s with less := some (removeRedundant S a c isAnd), changed := true }
  else
    match s.greater with
    | none => { s with greater := some c }
    | some a => { s with greater := some (removeRedundant S a c isAnd), changed := true }

/-- `_suggestion_for_group_of_boolops` after its loop, `edulint/linting/checkers/simplifiable_if.py:1612-1683`. If there is neither
kind of comparison, which does not happen, the message could not be put together. -/
def ofBounds (t original : List Tok) (isOr : Bool) (s : Bounds V) : Option Msg :=
  match s.less, s.greater with
  | none, none => none
  | none, some b => some ⟨.redundant, original, t ++ (b.1.toks ++ S.shown b.2)⟩
  | some a, none => some ⟨.redundant, original, t ++ (a.1.toks ++ S.shown a.2)⟩
  | some a, some b =>
    match alwaysText S a b t isOr with
    | some u => some ⟨if u = boolText true ∨ u = boolText false then .redundant else .equal, original, u⟩
    | none =>
      if S.val a.2 ≠ -(S.val b.2) ∨ a.1 ≠ switched b.1 then
        (if s.changed then
          some ⟨.redundant, original, t ++ (a.1.toks ++ S.shown a.2) ++ boolTok isOr :: (t ++ (b.1.toks ++ S.shown b.2))⟩
        else none)
      else some ⟨.abs, original, if isOr then singleOr S a b t else singleAnd S a b t⟩

/-- `_suggestion_for_group_of_boolops`, `edulint/linting/checkers/simplifiable_if.py:1585-1683` -/
def suggestion (isOr : Bool) (e : Expr) (group : List (CmpOp × V)) : Option Msg :=
  ofBounds S e.text (groupText S e.text isOr group) isOr (group.foldl (bound S (!isOr)) ⟨none, none, false⟩)

/-- The groups of `_group_and_check_by_representation`, `edulint/linting/checkers/simplifiable_if.py:1685-1712`: an operand has been
checked already if its expression is one of those `seen`. -/
def groupsOf (seen : List Expr) : List (Expr × CmpOp × V) → List (Expr × List (CmpOp × V))
  | [] => []
  | c :: cs =>
    if seen.contains c.1 then groupsOf seen cs
    else (c.1, c.2 :: (cs.filter fun d => d.1 == c.1).map (·.2)) :: groupsOf (c.1 :: seen) cs

/-- `_group_and_check_by_representation`, `edulint/linting/checkers/simplifiable_if.py:1685-1714` -/
def checkGroups (isOr : Bool) (operands : List (Expr × CmpOp × V)) : List Msg :=
  (groupsOf [] operands).filterMap fun g => if g.2.length < 2 then none else suggestion S isOr g.1 g.2

/-! ### Comparisons that can be joined by `max` or `min` -/

/-- `SameDirComparisons`, `edulint/linting/checkers/simplifiable_if.py:52-57` -/
abbrev Comparisons (α : Type) := List (Expr × List (CmpOp × List (α × Bool)))

/-- `_update_comparisons` for the comparisons of one expression. -/
def updateCmp {α : Type} (op : CmpOp) (x : α × Bool) : List (CmpOp × List (α × Bool)) → List (CmpOp × List (α × Bool))
  | [] => [(op, [x])]
  | c :: cs => if c.1 = op then (c.1, c.2 ++ [x]) :: cs else c :: updateCmp op x cs

/-- `_update_comparisons`, `edulint/linting/checkers/simplifiable_if.py:1716-1731` -/
def update {α : Type} (e : Expr) (op : CmpOp) (x : α × Bool) : Comparisons α → Comparisons α
  | [] => [(e, [(op, [x])])]
  | c :: cs => if c.1 = e then (c.1, updateCmp op x c.2) :: cs else c :: update e op x cs

/-- What is chosen for a suggestion: an expression, a comparison, what it is compared with, and a number it is compared with. -/
structure Chosen (V : Type) where
  expr : Expr
  op : CmpOp
  exprs : List (Expr × Bool)
  num : Option (V × Bool)

/-- The number that an expression is compared with in the given way, if it is the only one,
`edulint/linting/checkers/simplifiable_if.py:1842-1849`. -/
def onlyNumber (numbers : Comparisons V) (e : Expr) (op : CmpOp) : Option (V × Bool) :=
  match numbers.find? (·.1 == e) with
  | some (_, [(o, [n])]) => if o = op then some n else none
  | _ => none

/-- The body of the inner loop, `edulint/linting/checkers/simplifiable_if.py:1833-1862`. -/
def choose (numbers : Comparisons V) (e : Expr) (best : Option (Chosen V)) (c : CmpOp × List (Expr × Bool)) : Option (Chosen V) :=
  if c.2.length < 2 then best
  else
    let num := onlyNumber numbers e c.1
    let count := c.2.length + (if num.isSome then 1 else 0)
    match best with
    | none => some ⟨e, c.1, c.2, num⟩
    | some b => if b.exprs.length < count then some ⟨e, c.1, c.2, num⟩ else some b

/-- The loops, `edulint/linting/checkers/simplifiable_if.py:1831-1862`. -/
def chosen (numbers : Comparisons V) (comparisons : Comparisons Expr) : Option (Chosen V) :=
  comparisons.foldl (fun best c => c.2.foldl (choose numbers c.1) best) none

/-- `_switch_if_necessary`, `edulint/linting/checkers/simplifiable_if.py:1733-1739` -/
def switchIf (t : List Tok) (op : CmpOp) (u : List Tok) (wasSwitched : Bool) : List Tok :=
  if wasSwitched then u ++ ((switched op).toks ++ t) else t ++ (op.toks ++ u)

/-- What the expression is compared with, as texts. -/
def Chosen.texts (c : Chosen V) : List (List Tok × Bool) :=
  c.exprs.map (fun x => (x.1.text, x.2)) ++ c.num.toList.map fun x => (S.shown x.1, x.2)

/-- Texts with a token in between. -/
def sepBy (sep : Tok) : List (List Tok) → List Tok
  | [] => []
  | [t] => t
  | t :: u :: ts => t ++ sep :: sepBy sep (u :: ts)

/-- `_get_original_group_as_string`, `edulint/linting/checkers/simplifiable_if.py:1741-1769` -/
def originalText (c : Chosen V) (isOr : Bool) : List Tok :=
  sepBy (boolTok isOr) ((c.texts S).map fun x => switchIf c.expr.text c.op x.1 x.2)

/-- A text without its last character. A number of several digits loses the last one; other literals of several characters
are no literals any more. -/
def dropLastChar : List Tok → List Tok
  | [] => []
  | [.sym s] => if s.length ≤ 1 then [] else [.sym (String.ofList s.toList.dropLast)]
  | [.ident x] => if x.length ≤ 1 then [] else [.ident x.dropLast]
  | [.lit (.int n)] => if n < 10 then [] else [.lit (.int (n / 10))]
  | [_] => [.bad]
  | t :: u :: ts => t :: dropLastChar (u :: ts)

/-- The name of the function. -/
def funcName (isMax : Bool) : Str := if isMax then "max".toList else "min".toList

/-- `expressions[i][4:-1]` of an expression that starts with the function,
`edulint/linting/checkers/simplifiable_if.py:1787-1790`. -/
def argText (isMax : Bool) (t : List Tok) : List Tok :=
  if startsWith (funcName isMax) t then dropLastChar (t.drop 2) else t

/-- The call of the function, `edulint/linting/checkers/simplifiable_if.py:1783-1803`: only expressions are looked into. -/
def callText (isMax : Bool) (c : Chosen V) : List Tok :=
  .ident (funcName isMax) :: .sym "(" ::
    (sepBy (.sym ",") (c.exprs.map (fun x => argText isMax x.1.text) ++ c.num.toList.map fun x => S.shown x.1) ++ [.sym ")"])

/-- `all_switched_or_all_not_switched`, where `first` is `was_switched[0]`. -/
def sameDirection (c : Chosen V) (first : Bool) : Bool :=
  c.exprs.all (·.2 == first) && c.num.toList.all (·.2 == first)

/-- `_put_into_max_or_min`, `edulint/linting/checkers/simplifiable_if.py:1771-1810` -/
def putInto (isMax : Bool) (c : Chosen V) : List Tok :=
  let first := (c.exprs.head?.map (·.2)).getD false
  if (sameDirection c first && first) || (!sameDirection c first && !isLess c.op) then
    callText S isMax c ++ ((switched c.op).toks ++ c.expr.text)
  else c.expr.text ++ (c.op.toks ++ callText S isMax c)

/-- Which function it is, `edulint/linting/checkers/simplifiable_if.py:1871-1878`. -/
def usesMax (isOr : Bool) (op : CmpOp) : Bool := (!isOr && !isLess op) || (isOr && isLess op)

/-- `_make_suggestion_for_using_max_min_if_possible`, `edulint/linting/checkers/simplifiable_if.py:1812-1889` -/
def checkMaxMin (isOr : Bool) (numbers : Comparisons V) (comparisons : Comparisons Expr) : List Msg :=
  match chosen numbers comparisons with
  | none => []
  | some c => [⟨.maxMin, originalText S c isOr, putInto S (usesMax isOr c.op) c⟩]

/-! ### Comparisons of remainders -/

/-- `Comparisons`, `edulint/linting/checkers/simplifiable_if.py:68-71` -/
inductive ModKind where
  | equality | inequality | other
  deriving DecidableEq

/-- `PairsOfModComparisonsWithNum`, `edulint/linting/checkers/simplifiable_if.py:81-109`. Sets of numbers are lists without
repetitions. -/
structure ModPairs where
  left : Expr
  right : Expr
  modulo : Int
  forEquality : List Int
  forInequality : List (Int × Int)
  forTrue : List (Int × Int)
  pairs : List (Expr × ModKind)

/-- `get_possible_values_mod`, `edulint/linting/checkers/simplifiable_if.py:122-127` -/
def possible (modulo : Int) (isEq : Bool) (value : Int) : List Int :=
  if isEq then [value] else ((List.range modulo.toNat).map Int.ofNat).filter (· != value)

/-- Adding to a set. -/
def addTo {α : Type} [BEq α] (s : List α) (x : α) : List α := if s.contains x then s else s ++ [x]

/-- `update_comparisons`, `edulint/linting/checkers/simplifiable_if.py:111-120`. The sets in the list are one set of pairs. -/
def updateSets (modulo : Int) (s : List (Int × Int)) (eq1 : Bool) (value1 : Int) (eq2 : Bool) (value2 : Int) : List (Int × Int) :=
  (possible modulo eq1 value1).foldl (fun s v => (possible modulo eq2 value2).foldl (fun s w => addTo s (v, w)) s) s

/-- `update`, `edulint/linting/checkers/simplifiable_if.py:129-148` -/
def ModPairs.update (p : ModPairs) (eq1 : Bool) (value1 : Int) (eq2 : Bool) (value2 : Int) (node : Expr) : ModPairs :=
  let p' :=
    if eq1 = true ∧ eq2 = true ∧ value1 = value2 then
      { p with forEquality := addTo p.forEquality value1, pairs := p.pairs ++ [(node, ModKind.equality)] }
    else if (eq1 = true ∧ eq2 = true) ∨ ((eq1 = true ∨ eq2 = true) ∧ value1 = value2) then
      { p with forInequality := updateSets p.modulo p.forInequality eq1 value1 eq2 value2, pairs := p.pairs ++ [(node, ModKind.inequality)] }
    else { p with pairs := p.pairs ++ [(node, ModKind.other)] }
  { p' with forTrue := updateSets p.modulo p.forTrue eq1 value1 eq2 value2 }

/-- The size of one of the sets in a list. -/
def sizeAt (s : List (Int × Int)) (v : Int) : Nat := (s.filter (·.1 == v)).length

/-- `always_true`, `edulint/linting/checkers/simplifiable_if.py:150-155` -/
def ModPairs.alwaysTrue (p : ModPairs) : Bool :=
  (List.range p.modulo.toNat).all fun v => ((sizeAt p.forTrue (Int.ofNat v) : Nat) : Int) == p.modulo

/-- `has_part_simplifiable_to_equality`, `edulint/linting/checkers/simplifiable_if.py:157-158` -/
def ModPairs.toEquality (p : ModPairs) : Bool := (p.forEquality.length : Int) == p.modulo

/-- `has_part_simplifiable_to_inequality`, `edulint/linting/checkers/simplifiable_if.py:160-165` -/
def ModPairs.toInequality (p : ModPairs) : Bool :=
  (List.range p.modulo.toNat).all fun v => ((sizeAt p.forInequality (Int.ofNat v) : Nat) : Int) == p.modulo - 1

/-- A comparison of a remainder: the expression, the modulus, whether it is `==`, and the value. -/
structure ModCmp where
  expr : Expr
  modulo : Int
  isEq : Bool
  value : Int

/-- The last part of `_destructure_mod_and_number_comparison`, `edulint/linting/checkers/simplifiable_if.py:1927-1940`: `left` is
not a number, and `v` is the value of the other side. -/
def modCmpOf (left : Expr) (isEq : Bool) (v : V) : Except PyErr (Option ModCmp) :=
  match left with
  | .bin .mod l r =>
    match number S r with
    | .error x => .error x
    | .ok none => .ok none
    | .ok (some m) =>
      let modulo := (S.val m).num
      let value := (S.val v).num
      if S.isInt m = false ∨ modulo < 2 ∨ S.isInt v = false ∨ value < 0 ∨ modulo ≤ value then .ok none
      else if modulo = 2 ∧ isEq = false then .ok (some ⟨l, modulo, true, 1 - value⟩)
      else .ok (some ⟨l, modulo, isEq, value⟩)
  | _ => .ok none

/-- `_destructure_mod_and_number_comparison`, `edulint/linting/checkers/simplifiable_if.py:1913-1940` -/
def modCmp (left : Expr) (isEq : Bool) (right : Expr) : Except PyErr (Option ModCmp) :=
  match number S left with
  | .error x => .error x
  | .ok l =>
    match number S right with
    | .error x => .error x
    | .ok r =>
      match l, r with
      | some v, none => modCmpOf S right isEq v
      | none, some v => modCmpOf S left isEq v
      | _, _ => .ok none

/-- `_is_equality_or_inequality`, `edulint/linting/checkers/simplifiable_if.py:1891-1896`: the two sides, and whether it is `==`. -/
def equalityOf : Expr → Option (Expr × Bool × Expr)
  | .compare l [(.eq, r)] => some (l, true, r)
  | .compare l [(.ne, r)] => some (l, false, r)
  | _ => none

/-- `_is_conjunction_of_two_equalities`, `edulint/linting/checkers/simplifiable_if.py:1898-1905` -/
def conjunctionOf : Expr → Option ((Expr × Bool × Expr) × (Expr × Bool × Expr))
  | .boolOp false [a, b] =>
    match equalityOf a, equalityOf b with
    | some x, some y => some (x, y)
    | _, _ => none
  | _ => none

/-- `_destructure_mod_and_number_comps`, `edulint/linting/checkers/simplifiable_if.py:1942-1965` -/
def modCmps (x y : Expr × Bool × Expr) : Except PyErr (Option (ModCmp × ModCmp)) :=
  match modCmp S x.1 x.2.1 x.2.2 with
  | .error e => .error e
  | .ok a =>
    match modCmp S y.1 y.2.1 y.2.2 with
    | .error e => .error e
    | .ok b =>
      match a, b with
      | some a, some b => .ok (if a.modulo = b.modulo then some (a, b) else none)
      | _, _ => .ok none

/-- `_insert_conjuncted_mod_comparison`, `edulint/linting/checkers/simplifiable_if.py:1967-1995` -/
def insertPair (a b : ModCmp) (node : Expr) : List ModPairs → List ModPairs
  | [] => [ModPairs.update ⟨a.expr, b.expr, a.modulo, [], [], [], []⟩ a.isEq a.value b.isEq b.value node]
  | p :: ps =>
    if p.modulo ≠ a.modulo then p :: insertPair a b node ps
    else if p.left = a.expr ∧ p.right = b.expr then p.update a.isEq a.value b.isEq b.value node :: ps
    else if p.left = b.expr ∧ p.right = a.expr then p.update b.isEq b.value a.isEq a.value node :: ps
    else p :: insertPair a b node ps

/-- `_add_parentheses_to_operations`, `edulint/linting/checkers/simplifiable_if.py:1907-1911` -/
def parens : Expr → List Tok
  | e@(.bin _ _ _) | e@(.boolOp _ _) | e@(.unary _ _) | e@(.compare _ _) => .sym "(" :: (e.text ++ [.sym ")"])
  | e => e.text

/-- `x % m == y % m`, or with another comparison. -/
def modText (p : ModPairs) (op : CmpOp) : List Tok :=
  parens p.left ++ BinOp.tok .mod :: Tok.lit (.int p.modulo.toNat) :: (op.toks ++ (parens p.right ++ [BinOp.tok .mod, .lit (.int p.modulo.toNat)]))

/-- `" or ".join(…)` of some of the pairs. -/
def pairsText (nodes : List Expr) : List Tok := sepBy (boolTok true) (nodes.map Expr.text)

/-- `_make_suggestion_for_simplifiable_test_by_equals` for one pair, `edulint/linting/checkers/simplifiable_if.py:2001-2031`. -/
def byEquals (p : ModPairs) : Option Msg :=
  if p.alwaysTrue then some ⟨.byEquals, pairsText (p.pairs.map (·.1)), boolText true⟩
  else if p.toEquality then some ⟨.byEquals, pairsText ((p.pairs.filter (·.2 == .equality)).map (·.1)), modText p .eq⟩
  else if p.toInequality then some ⟨.byEquals, pairsText ((p.pairs.filter (·.2 == .inequality)).map (·.1)), modText p .ne⟩
  else none

/-! ### Together -/

/-- What `_check_for_simplification_of_boolop` collects, `edulint/linting/checkers/simplifiable_if.py:2224-2229`. -/
structure Acc (V : Type) where
  operands : List (Expr × CmpOp × V)
  numbers : Comparisons V
  comparisons : Comparisons Expr
  pairs : List ModPairs

/-- `_is_comparison_not_between_numbers`, `edulint/linting/checkers/simplifiable_if.py:2033-2040` -/
def notNumbers : Expr → Except PyErr (Option (Expr × CmpOp × Expr))
  | .compare l [(op, r)] =>
    if isOrder op then
      match number S l with
      | .error x => .error x
      | .ok (some _) => .ok none
      | .ok none =>
        match number S r with
        | .error x => .error x
        | .ok (some _) => .ok none
        | .ok none => .ok (some (l, op, r))
    else .ok none
  | _ => .ok none

/-- `value.ops[0][0] != operand[1]` -/
def wasSwitched (value : Expr) (op : CmpOp) : Bool :=
  match value with
  | .compare _ ((o, _) :: _) => o != op
  | _ => false

/-- The body of the loop for an operand that is pure, `edulint/linting/checkers/simplifiable_if.py:2235-2266`. -/
def collect (isOr : Bool) (acc : Acc V) (value : Expr) : Except PyErr (Acc V) :=
  match operandOf S value with
  | .error x => .error x
  | .ok (some (e, op, v)) =>
    .ok { acc with operands := acc.operands ++ [(e, op, v)], numbers := update e op (v, wasSwitched value op) acc.numbers }
  | .ok none =>
    match notNumbers S value with
    | .error x => .error x
    | .ok (some (l, op, r)) => .ok { acc with comparisons := update r (switched op) (l, true) (update l op (r, false) acc.comparisons) }
    | .ok none =>
      match isOr, conjunctionOf value with
      | true, some (x, y) =>
        match modCmps S x y with
        | .error x => .error x
        | .ok (some (a, b)) => .ok { acc with pairs := insertPair a b value acc.pairs }
        | .ok none => .ok acc
      | _, _ => .ok acc

/-- The loop, `edulint/linting/checkers/simplifiable_if.py:2231-2266`. If an operand is not pure, nothing is reported. -/
def collectAll (pure : Expr → Bool) (isOr : Bool) (acc : Acc V) : List Expr → Except PyErr (Option (Acc V))
  | [] => .ok (some acc)
  | value :: values =>
    if pure value then
      match collect S isOr acc value with
      | .error x => .error x
      | .ok acc => collectAll pure isOr acc values
    else .ok none

/-- `_check_for_simplification_of_boolop` up to the use of the solver, `edulint/linting/checkers/simplifiable_if.py:2220-2272`.
`pure` is `is_pure_expression` (`isPure`), which depends on what `astroid` infers for functions. -/
def check (pure : Expr → Bool) (isOr : Bool) (values : List Expr) : Except PyErr (List Msg) :=
  match collectAll S pure isOr ⟨[], [], [], []⟩ values with
  | .error x => .error x
  | .ok none => .ok []
  | .ok (some acc) => .ok (checkGroups S isOr acc.operands ++ acc.pairs.filterMap byEquals ++ checkMaxMin S isOr acc.numbers acc.comparisons)

end

end Verif.Py.BoolOps
