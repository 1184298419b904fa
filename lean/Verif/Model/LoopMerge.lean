import Verif.Model.Repetition
import Verif.Model.ForEach

/-!
Loops whose body is a repetition: `get_fixed_by_merging_with_parent_loop` and the way to it,
`edulint/linting/checkers/duplication/duplicate_sequence.py:345-384` and `418-471`.

Numbers of tokens and of statements are given. The product of a constant that is a float and an integer is left to the meaning of the rest of
Python; a float is never taken for the number 0 or 1.
-/

namespace Verif.LoopMerge

open Verif.Py (Expr Lit Val FoldSem Tok constValue intSem rangeParams)
open Verif.ForEach (S)

/-- A statement: which one it is, its first line and what it is. -/
structure Node where
  id : Nat
  line : Nat
  code : S

/-- Keys of dictionaries: `Variable` is a dataclass, `edulint/linting/analyses/var_events.py:22-25`, and so it is not equal to any tuple. -/
inductive Key where
  | variable (name : Str) (scope : Nat)
  | tuple (name : Str) (scope : Nat)
  deriving DecidableEq

/-- What is suggested instead of the last argument of `range`: a number or a text. -/
inductive Times where
  | value (v : Val)
  | text (toks : List Tok)

/-- The parent of the statements if it is a `for`. -/
structure For where
  body : List Node
  iter : Expr
  /-- the name of the target if that is one -/
  target : Option Str
  scope : Nat

/-- `get_const_value(e) == n` -/
def constIs (R : FoldSem Val) (e : Expr) (n : Int) : Except PyErr Bool :=
  match constValue (intSem R) e with
  | .error x => .error x
  | .ok none => .ok false
  | .ok (some v) => .ok (decide (v.asInt = some n))

/-- `edulint/linting/checkers/duplication/duplicate_sequence.py:361` -/
def plain (R : FoldSem Val) (start step : Expr) : Except PyErr Bool :=
  match constIs R start 0 with
  | .error x => .error x
  | .ok false => .ok false
  | .ok true => constIs R step 1

/-- `new_iter`, `edulint/linting/checkers/duplication/duplicate_sequence.py:373-378` -/
def newIter (R : FoldSem Val) (stop : Expr) (k : Nat) : Except PyErr Times :=
  match stop with
  | .const v =>
    match (intSem R).binary .mul ((intSem R).lit v) (.int k) with
    | .error x => .error x
    | .ok w => .ok (.value w)
  | _ =>
    match constValue (intSem R) stop with
    | .error x => .error x
    | .ok _ => .ok (.text (stop.text ++ [.sym "*", .lit (.int k)]))

/-- The variable is used, `edulint/linting/checkers/duplication/duplicate_sequence.py:369`; `used` has the variables in the parts with their
scopes. -/
def usesTarget (used : List (Str × Nat)) (x : Str) (scope : Nat) : Bool :=
  (used.map fun v => Key.variable v.1 v.2).contains (.tuple x scope)

/-- `edulint/linting/checkers/duplication/duplicate_sequence.py:350-354` -/
def fills (body : List Node) (parts : List (List Node)) : Bool :=
  match parts.head?.bind List.head?, parts.getLast?.bind List.getLast?, body.head?, body.getLast? with
  | some a, some b, some c, some d => a.id == c.id && b.id == d.id
  | _, _, _, _ => false

/-- `get_fixed_by_merging_with_parent_loop`, `edulint/linting/checkers/duplication/duplicate_sequence.py:345-384`, without the counts:
the first lines of the parts and the number of iterations. `avars` is the number of places where the parts differ. -/
def mergeFix (R : FoldSem Val) (parent : Option For) (parts : List (List Node)) (used : List (Str × Nat)) (avars : Nat) :
    Except PyErr (Option (List Nat × Times)) :=
  match parent with
  | none => .ok none
  | some f =>
    if avars > 0 then .ok none
    else if fills f.body parts = false then .ok none
    else
      match rangeParams f.iter with
      | none => .ok none
      | some (start, stop, step) =>
        match plain R start step with
        | .error x => .error x
        | .ok false => .ok none
        | .ok true =>
          match f.target with
          | none => .ok none
          | some x =>
            if usesTarget used x f.scope then .ok none
            else
              match newIter R stop parts.length with
              | .error e => .error e
              | .ok t => .ok (some (parts.filterMap fun p => p.head?.map (·.line), t))

/-- `saves_enough_tokens`, `edulint/linting/checkers/duplication/utils.py:70-77`, with 0.2 as a fraction -/
def saves (tokensBefore stmtsBefore tokensAfter stmtsAfter : Nat) : Bool :=
  decide (stmtsAfter ≤ stmtsBefore + 1) && decide (5 * tokensAfter < 4 * tokensBefore)

/-- `similar-block-to-loop-merge` is reported, `edulint/linting/checkers/duplication/duplicate_sequence.py:418-471`; `tokens` and `stmts` count
the tokens and the statements of a part, and what the parts have in common is the first of them if they do not differ. -/
def reportsMerge (R : FoldSem Val) (parent : Option For) (parts : List (List Node)) (used : List (Str × Nat)) (avars : Nat)
    (tokens stmts : List Node → Nat) : Except PyErr (Option (List Nat × Times)) :=
  match parts with
  | [] => .ok none
  | p :: ps =>
    if max (p :: ps).length p.length ≤ 2 then .ok none
    else
      match mergeFix R parent (p :: ps) used avars with
      | .error x => .error x
      | .ok none => .ok none
      | .ok (some m) =>
        if saves (((p :: ps).map tokens).sum) (((p :: ps).map stmts).sum) (tokens p) (stmts p) then .ok (some m) else .ok none

end Verif.LoopMerge
