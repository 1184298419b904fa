import Verif.Model.Expr

/-!
Suggestions for conditionals, `edulint/linting/checkers/simplifiable_if.py:443-642, 1391-1404`.

Statements are modelled as far as these checks look at them. Comparing texts is comparing trees.
-/

namespace Verif.Py.SimpleIf

/-- Statements. Targets of assignments are expressions; a tuple is `other`. -/
inductive Stmt where
  | ret (value : Option Expr)
  | assign (targets : List Expr) (value : Expr)
  | annAssign (target : Expr) (value : Option Expr)
  | augAssign (target : Expr) (op : BinOp) (value : Expr)
  | del (targets : List Expr)
  | pass
  | cond (test : Expr) (body orelse : List Stmt)
  | other (tag : Str)

/-- Arguments of `_get_refactored`; a node is perhaps `None`. -/
inductive Arg where
  | not
  | bool (isOr : Bool)
  | node (e : Option Expr)
deriving DecidableEq

/-- Text in brackets. -/
def bracket (t : List Tok) : List Tok := .sym "(" :: (t ++ [.sym ")"])

/-- `<negated …>`, `edulint/linting/checkers/simplifiable_if.py:451-455`, stands for any way to write the negation, with
the brackets it needs. -/
def negatedText (e : Expr) : List Tok := bracket (.sym "not" :: bracket e.text)

/-- The node is `and` (`or`), but the other one is needed. -/
def otherBool (isOr : Bool) : Arg → Bool
  | .node (some (.boolOp isOr' _)) => isOr' != isOr
  | _ => false

/-- `result[-1] = f"({result[-1]})"` -/
def bracketLast (result : List (List Tok)) : Except PyErr (List (List Tok)) :=
  match result.getLast? with
  | none => .error .indexError
  | some t => .ok (result.dropLast ++ [bracket t])

/-- The text of a node. -/
def Arg.text : Arg → List Tok
  | .node (some e) => e.text
  | _ => []

/-- The loop of `_get_refactored`, `edulint/linting/checkers/simplifiable_if.py:444-473`, in `fuel` steps. -/
def refactoredLoop (args : List Arg) : Nat → Nat → List (List Tok) → Except PyErr (List Tok)
  | 0, _, _ => .error .recursionError
  | fuel + 1, i, result =>
    match args[i]? with
    | none => .ok result.flatten
    | some .not =>
      match args[i + 1]? with
      | none => .error .indexError
      | some (.node (some v)) => refactoredLoop args fuel (i + 2) (result ++ [negatedText v])
      | some _ => .error .assertionError
    | some (.bool isOr) =>
      match args[i - 1]?, args[i + 1]? with
      | some prev, some next =>
        match (if otherBool isOr prev ∧ (i < 2 ∨ args[i - 2]? ≠ some .not) then bracketLast result else .ok result) with
        | .error x => .error x
        | .ok result' =>
          if otherBool isOr next then
            refactoredLoop args fuel (i + 2) (result' ++ [[boolTok isOr]] ++ [bracket next.text])
          else refactoredLoop args fuel (i + 1) (result' ++ [[boolTok isOr]])
      | _, _ => .error .indexError
    | some (.node (some e)) => refactoredLoop args fuel (i + 1) (result ++ [e.text])
    | some (.node none) => refactoredLoop args fuel i result

/-- `_get_refactored`, `edulint/linting/checkers/simplifiable_if.py:443-475` -/
def refactored (fuel : Nat) (args : List Arg) : Except PyErr (List Tok) := refactoredLoop args fuel 0 []

/-- `_is_bool`, `edulint/linting/checkers/simplifiable_if.py:425-426`, and the value -/
def boolValue : Option Expr → Option Bool
  | some (.const (.bool b)) => some b
  | _ => none

/-- `self._get_refactored(*args), only` -/
def withText (fuel : Nat) (args : List Arg) (only : Bool) : Except PyErr (Option (List Tok × Bool)) :=
  match refactored fuel args with
  | .error x => .error x
  | .ok t => .ok (some (t, only))

/-- `_refactored_cond_from_then_orelse`, `edulint/linting/checkers/simplifiable_if.py:495-523`: the text and whether it
only replaces. -/
def condFrom (fuel : Nat) (test : Expr) (then_ orelse : Option Expr) : Except PyErr (Option (List Tok × Bool)) :=
  match boolValue then_, boolValue orelse with
  | none, none => .ok none
  | some true, some false => withText fuel [.node test] true
  | some false, some true => withText fuel [.not, .node test] true
  | some _, some _ => .ok none
  | some true, none => withText fuel [.node test, .bool true, .node orelse] false
  | some false, none => withText fuel [.not, .node test, .bool false, .node orelse] false
  | none, some true => withText fuel [.not, .node test, .bool true, .node then_] false
  | none, some false => withText fuel [.node test, .bool false, .node then_] false

/-- `visit_ifexp`, `edulint/linting/checkers/simplifiable_if.py:1391-1404` -/
def checkIfExp (fuel : Nat) (test then_ orelse : Expr) : Except PyErr (Option (List Tok × Bool)) :=
  match then_, orelse with
  | .const _, .const _ | .const _, .name _ | .name _, .const _ | .name _, .name _ =>
    condFrom fuel test (some then_) (some orelse)
  | _, _ => .ok none

/-- `get_assigned_to`, `edulint/linting/analyses/utils.py:259-264`, of a node with `target` or `targets`. -/
def Stmt.targets : Stmt → Option (List Expr)
  | .assign ts _ => some ts
  | .annAssign t _ => some [t]
  | .augAssign t _ _ => some [t]
  | .del ts => some ts
  | _ => none

/-- Node classes of targets. -/
def sameKind : Expr → Expr → Bool
  | .name _, .name _ => true
  | .attr _ _, .attr _ _ => true
  | .subscript _ _, .subscript _ _ => true
  | .other t _, .other t' _ => t == t'
  | _, _ => false

def isSubscript : Expr → Bool
  | .subscript _ _ => true
  | _ => false

/-- `isinstance(node1, type(node2))` of statements -/
def Stmt.sameClass : Stmt → Stmt → Bool
  | .ret _, .ret _ => true
  | .assign _ _, .assign _ _ => true
  | .annAssign _ _, .annAssign _ _ => true
  | .augAssign _ _ _, .augAssign _ _ _ => true
  | .del _, .del _ => true
  | .pass, .pass => true
  | .cond _ _ _, .cond _ _ _ => true
  | .other t, .other t' => t == t'
  | _, _ => false

/-- `_mergeable`, `edulint/linting/checkers/simplifiable_if.py:534-552`. Two texts of single targets are sorted as they
are. -/
def mergeable (s1 s2 : Stmt) : Bool :=
  if s1.sameClass s2 then
    match s1, s2 with
    | .ret v1, .ret v2 => v1.isSome && v2.isSome
    | _, _ =>
      match s1.targets, s2.targets with
      | some [t1], some [t2] => sameKind t1 t2 && !isSubscript t1 && t1 == t2
      | _, _ => false
  else false

/-- `node.value` -/
def Stmt.value : Stmt → Except PyErr (Option Expr)
  | .ret v => .ok v
  | .assign _ v => .ok (some v)
  | .annAssign _ v => .ok v
  | .augAssign _ _ v => .ok (some v)
  | _ => .error .attributeError

/-- What is reported about a conditional. -/
inductive IfReport where
  /-- `simplifiable-if-nested`: the test that is suggested -/
  | nested (t : List Tok)
  /-- `simplifiable-if-seq`: the test that is suggested -/
  | seq (t : List Tok)
  /-- `simplifiable-if-pass`: the test that is suggested -/
  | pass (t : List Tok)
  /-- `no-value-in-one-branch-return` -/
  | noValue
  /-- `simplifiable-if-return`, `simplifiable-if-return-conj`: the value that is suggested -/
  | ret (t : List Tok) (only : Bool)
  /-- `simplifiable-if-assignment`, `simplifiable-if-assignment-conj`: the target and the value that is suggested -/
  | assign (target : Expr) (t : List Tok) (only : Bool)
deriving DecidableEq

def isBoolOp : Expr → Bool
  | .boolOp _ _ => true
  | _ => false

def Stmt.isIf : Stmt → Bool
  | .cond _ _ _ => true
  | _ => false

/-- A statement that does not keep `_merge_sequential` from giving up, `edulint/linting/checkers/simplifiable_if.py:578-580`. -/
def Stmt.plain : Stmt → Bool
  | .ret _ | .cond _ _ _ => true
  | s => s.targets.isSome

/-- `_merge_sequential`, `edulint/linting/checkers/simplifiable_if.py:554-588`; `siblings` is `node.parent.body`. -/
def mergeSequential (fuel : Nat) (test : Expr) (body : List Stmt) (test2 : Expr) (body2 orelse2 : List Stmt)
    (siblings : List Stmt) : Except PyErr (List IfReport) :=
  if isBoolOp test || isBoolOp test2 then .ok []
  else
    match body, body2, orelse2 with
    | [.ret v1], [.ret v2], [] =>
      if v1 = v2 then
        if siblings.all Stmt.plain && decide (siblings.countP Stmt.isIf > 2) then .ok []
        else
          match refactored fuel [.node test, .bool true, .node test2] with
          | .error x => .error x
          | .ok t => .ok [.seq t]
      else .ok []
    | _, _, _ => .ok []

/-- `_simplifiable_if_message`, `edulint/linting/checkers/simplifiable_if.py:428-441`, for a statement -/
def ifMessage (then_ : Stmt) (t : List Tok) (only : Bool) : Except PyErr (List IfReport) :=
  match then_ with
  | .ret _ => .ok [.ret t only]
  | s =>
    match s.targets with
    | some (target :: _) => .ok [.assign target t only]
    | _ => .error .indexError

/-- `_get_then_orelse`, `edulint/linting/checkers/simplifiable_if.py:480-493` -/
def thenOrelse (body orelse : List Stmt) (next : Option Stmt) : Option (Stmt × Stmt) :=
  match body, orelse with
  | [s], [s'] => some (s, s')
  | [.ret v], [] =>
    match next with
    | some (.ret v') => some (.ret v, .ret v')
    | _ => none
  | _, _ => none

/-- `_is_just_returning_if`, `edulint/linting/checkers/simplifiable_if.py:590-595` -/
def justReturning : Option Stmt → Bool
  | some (.cond _ body _) =>
    match body.getLast? with
    | some (.ret _) => true
    | _ => false
  | _ => false

/-- The end of `_basic_checks`, `edulint/linting/checkers/simplifiable_if.py:611-642` -/
def checkBranches (fuel : Nat) (test : Expr) (body orelse : List Stmt) (previous next : Option Stmt) :
    Except PyErr (List IfReport) :=
  match body, orelse with
  | [.pass], _ :: _ =>
    match refactored fuel [.not, .node test] with
    | .error x => .error x
    | .ok t => .ok [.pass t]
  | _, _ =>
    match thenOrelse body orelse next with
    | none => .ok []
    | some (.ret (some _), .ret none) | some (.ret none, .ret (some _)) => .ok [.noValue]
    | some (s, s') =>
      if mergeable s s' && !(orelse.isEmpty && justReturning previous) then
        match s.value, s'.value with
        | .ok v, .ok v' =>
          match condFrom fuel test v v' with
          | .error x => .error x
          | .ok none => .ok []
          | .ok (some (t, only)) => ifMessage s t only
        | .error x, _ | _, .error x => .error x
      else .ok []

/-- `_basic_checks`, `edulint/linting/checkers/simplifiable_if.py:597-642`, with the statements before and after the
conditional and those of the body it is in. -/
def basicChecks (fuel : Nat) (test : Expr) (body orelse : List Stmt) (previous next : Option Stmt) (siblings : List Stmt) :
    Except PyErr (List IfReport) :=
  match orelse, body, next with
  | [], [.cond test2 _ []], _ =>
    match refactored fuel [.node test, .bool false, .node test2] with
    | .error x => .error x
    | .ok t => .ok [.nested t]
  | [], _, some (.cond test2 body2 orelse2) => mergeSequential fuel test body test2 body2 orelse2 siblings
  | _, _, _ => checkBranches fuel test body orelse previous next

end Verif.Py.SimpleIf
