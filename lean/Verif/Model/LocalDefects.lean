import Verif.Model.PyInt

/-!
Checks of `edulint/linting/checkers/local_defects.py`.

What a check reports is modelled by the arguments of its message; suggestions are texts (lists of tokens).
-/

namespace Verif.Py

section
variable (R : FoldSem Val)

/-! ### Loops with at most one iteration -/

/-- `get_const_value(e)` if it is an instance of `int`. -/
def constInt (e : Expr) : Except PyErr (Option Int) :=
  match constValue (intSem R) e with
  | .error x => .error x
  | .ok Option.none => .ok Option.none
  | .ok (some v) => .ok v.asInt

/-- The two texts of the message. -/
inductive Iterations where
  | no
  | onlyOne
  deriving DecidableEq, Repr

/-- `edulint/linting/checkers/local_defects.py:192-199`. -/
def classifyRange (start stop step : Int) : Option Iterations :=
  if step > 0 ∧ start ≥ stop ∨ step < 0 ∧ start ≤ stop then some .no
  else if step > 0 ∧ start + step ≥ stop ∨ step < 0 ∧ start + step ≤ stop then some .onlyOne
  else Option.none

/-- `_check_iteration_count`, `edulint/linting/checkers/local_defects.py:183-199`, for a loop over `iter`. -/
def iterationCount (iter : Expr) : Except PyErr (Option Iterations) :=
  match rangeParams iter with
  | Option.none => .ok Option.none
  | some (start, stop, step) =>
    match constInt R start, constInt R stop, constInt R step with
    | .error x, _, _ => .error x
    | _, .error x, _ => .error x
    | _, _, .error x => .error x
    | .ok (some a), .ok (some b), .ok (some c) => .ok (classifyRange a b c)
    | _, _, _ => .ok Option.none

end

/-! ### Repeated operations -/

/-- `_check_repeated_operation_rec`, `edulint/linting/checkers/local_defects.py:201-225`: the number of operands
and the name that is returned. Texts are compared as expressions. For an operation the returned name is the
parameter (`edulint/linting/checkers/local_defects.py:219`). The assertion at
`edulint/linting/checkers/local_defects.py:213` always holds. -/
def repeatedRec (op : BinOp) : Expr → Option Expr → Option (Nat × Option Expr)
  | .bin o l r, name =>
    if o ≠ op then Option.none
    else
      match repeatedRec op l name with
      | Option.none => Option.none
      | some (countLt, nameLt) =>
        match repeatedRec op r nameLt with
        | Option.none => Option.none
        | some (countRt, _) => some (countLt + countRt, name)
  | e, name =>
    match name with
    | some n => if n = e then some (1, some e) else Option.none
    | Option.none =>
      match e with
      | .name _ => some (1, some e)
      | .attr _ _ => some (1, some e)
      | .subscript _ _ => some (1, some e)
      | _ => Option.none

/-- `_check_repeated_operation`, `edulint/linting/checkers/local_defects.py:227-242`: is the operation reported? -/
def repeatedOperation (node : Expr) : Bool :=
  match node with
  | .bin op _ _ => (op = .add ∨ op = .mul) ∧ (repeatedRec op node Option.none).isSome
  | _ => false

section
variable (R : FoldSem Val)

/-! ### Numbers of letters -/

/-- `_is_ord`, `edulint/linting/checkers/local_defects.py:363-364`. -/
def isOrd : Expr → Bool
  | .call (.name f) _ => f = "ord".toList
  | _ => false

/-- `_contains_ord`, `edulint/linting/checkers/local_defects.py:366-371`. -/
def containsOrd (e : Expr) : Bool :=
  isOrd e ||
    match e with
    | .bin _ l r => isOrd l || isOrd r
    | _ => false

/-- `chr(value)`. -/
def chr (i : Int) : Char := Char.ofNat i.toNat

/-- `_is_preffered`, `edulint/linting/checkers/local_defects.py:373-374`. -/
def isPreferred (i : Int) : Bool := "azAZ09".toList.contains (chr i)

/-- `_in_suggestable_range`, `edulint/linting/checkers/local_defects.py:376-377`. -/
def inSuggestableRange (i : Int) : Bool := decide (32 ≤ i) && decide (i < 127)

/-- A character put between apostrophes: an apostrophe or a backslash does not give a string. -/
def quoted (c : Char) : Tok := if c = '\'' ∨ c = '\\' then .bad else .lit (.str [c])

/-- `ord('c')`. -/
def ordToks (c : Char) : List Tok := [.ident "ord".toList, .sym "(", quoted c, .sym ")"]

/-- Suggestions of `_check_use_ord_letter` without parentheses,
`edulint/linting/checkers/local_defects.py:396-403`. The number tells what is added after `ord`. -/
def ordSuggestion (ordIsBinOp : Bool) (value : Int) : Option (Char × Int) :=
  if isPreferred (value + 1) then some (chr (value + 1), -1)
  else if isPreferred (value - 1) then some (chr (value - 1), 1)
  else if !ordIsBinOp || isPreferred value then some (chr value, 0)
  else Option.none

/-- The text of a suggestion. -/
def ordSuggestionToks (c : Char) (d : Int) : List Tok :=
  ordToks c ++ (if d = -1 then [.sym "-", .lit (.int 1)] else if d = 1 then [.sym "+", .lit (.int 1)] else [])

/-- Is the node a `BinOp`? -/
def isBinOp : Expr → Bool
  | .bin _ _ _ => true
  | _ => false

/-- One round of the loop in `_check_use_ord_letter`, `edulint/linting/checkers/local_defects.py:387-410`: the value
and the text that is suggested instead of it. -/
def useOrdLetterAt (op : BinOp) (constIsLeft : Bool) (ordParam constParam : Expr) :
    Except PyErr (Option (Int × List Tok)) :=
  match constInt R constParam with
  | .error x => .error x
  | .ok Option.none => .ok Option.none
  | .ok (some value) =>
    if !inSuggestableRange value || !containsOrd ordParam then .ok Option.none
    else
      match ordSuggestion (isBinOp ordParam) value with
      | Option.none => .ok Option.none
      | some (c, d) =>
        if (op = .sub ∧ !constIsLeft ∧ d = 1) ∨ (op = .add ∧ constIsLeft ∧ d = -1) then
          .ok (some (value, .sym "(" :: (ordSuggestionToks c d ++ [.sym ")"])))
        else .ok (some (value, ordSuggestionToks c d))

/-- `_check_use_ord_letter`, `edulint/linting/checkers/local_defects.py:379-410`: what is suggested instead of the
right and of the left operand. -/
def useOrdLetter (op : BinOp) (l r : Expr) :
    Except PyErr (Option (Int × List Tok) × Option (Int × List Tok)) :=
  if op ≠ .add ∧ op ≠ .sub then .ok (Option.none, Option.none)
  else
    match useOrdLetterAt R op false l r with
    | .error x => .error x
    | .ok a =>
      match useOrdLetterAt R op true r l with
      | .error x => .error x
      | .ok b => .ok (a, b)

/-! ### Comparisons with numbers of letters -/

/-- `change`, `edulint/linting/checkers/local_defects.py:416-425`. -/
def changeOp : CmpOp → CmpOp
  | .lt => .le
  | .le => .lt
  | .gt => .ge
  | .ge => .gt
  | op => op

/-- The letter and the operator suggested for a number on the left of `op`,
`edulint/linting/checkers/local_defects.py:439-449`; `plain` is the last condition. -/
def letterLeft (value : Int) (op : CmpOp) (plain : Bool) : Option (Char × CmpOp) :=
  if isPreferred (value + 1) ∧ (op = .lt ∨ op = .ge) then some (chr (value + 1), changeOp op)
  else if isPreferred (value - 1) ∧ (op = .gt ∨ op = .le) then some (chr (value - 1), changeOp op)
  else if plain || isPreferred value then some (chr value, op)
  else Option.none

/-- The same for a number on the right of `op`, `edulint/linting/checkers/local_defects.py:451-460`. -/
def letterRight (value : Int) (op : CmpOp) (plain : Bool) : Option (Char × CmpOp) :=
  if isPreferred (value + 1) ∧ (op = .gt ∨ op = .le) then some (chr (value + 1), changeOp op)
  else if isPreferred (value - 1) ∧ (op = .lt ∨ op = .ge) then some (chr (value - 1), changeOp op)
  else if plain || isPreferred value then some (chr value, op)
  else Option.none

/-- `value is None or not self._in_suggestable_range(value)`, `edulint/linting/checkers/local_defects.py:434-436`,
for a number that is an integer. What happens with constants of other types is not modelled (they are
skipped here; in the code a string raises `TypeError`). -/
def suggestable (e : Expr) : Except PyErr (Option Int) :=
  match constInt R e with
  | .error x => .error x
  | .ok Option.none => .ok Option.none
  | .ok (some value) => if inSuggestableRange value then .ok (some value) else .ok Option.none

/-- `_check_magical_constant_in_ord_compare`, `edulint/linting/checkers/local_defects.py:412-460`: the suggestions for the
first operand and for the last one. -/
def ordCompare (left : Expr) (ops : List (CmpOp × Expr)) :
    Except PyErr (Option (Char × CmpOp) × Option (Char × CmpOp)) :=
  let operands := left :: ops.map (·.2)
  if !operands.any containsOrd then .ok (Option.none, Option.none)
  else
    match ops.head?, ops.getLast? with
    | some (firstOp, second), some (lastOp, last) =>
      match suggestable R left, suggestable R last with
      | .error x, _ => .error x
      | _, .error x => .error x
      | .ok a, .ok b =>
        let beforeLast := operands.dropLast.getLast?.getD left
        .ok (a.bind fun value => letterLeft value firstOp (!containsOrd second || !isBinOp second),
          b.bind fun value => letterRight value lastOp (!containsOrd beforeLast || !isBinOp beforeLast))
    | _, _ => .ok (Option.none, Option.none)

end

end Verif.Py
