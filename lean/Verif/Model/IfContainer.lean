import Verif.Model.Candidates
import Verif.Model.LoopMerge
import Verif.Model.Problem

/-!
Ifs that compare variables with constants, instead of which a list or a dictionary is suggested,
`edulint/linting/checkers/duplication/duplicate_if.py:634-845`.

Given are: what anti-unification of the bodies gives, whether variables of the conditions change, and the numbers of tokens and statements.
-/

namespace Verif.IfContainer

/-- Constants. -/
inductive Const where
  | int (i : Int)
  | bool (b : Bool)
  | str (s : Str)
  /-- anything else, none of which is equal to a number or a string; numbers that are not integral and equal to an integer are not modelled -/
  | other (n : Nat)
deriving DecidableEq

/-- What constants are equal to: `True == 1`. -/
inductive Key where
  | num (i : Int)
  | str (s : Str)
  | other (n : Nat)
deriving DecidableEq

def Const.key : Const → Key
  | .int i => .num i
  | .bool b => .num (if b then 1 else 0)
  | .str s => .str s
  | .other n => .other n

/-- An operand of a comparison. -/
inductive Opnd where
  | name (x : Str)
  | const (c : Const)
  | other (n : Nat)
deriving DecidableEq

/-- Conditions. -/
inductive Test where
  /-- a comparison with just `==` -/
  | eq (l r : Opnd)
  | and_ (ts : List Test)
  | or_ (ts : List Test)
  /-- any other condition, including names and constants -/
  | other (n : Nat)

/-- All of these variables are equal to these constants. -/
abbrev Conj := List (Str × Const)

/-- `itertools.product` -/
def product {α : Type} : List (List α) → List (List α)
  | [] => [[]]
  | l :: ls => l.flatMap fun a => (product ls).map fun p => a :: p

/-- `sorted(…, key=lambda literal: literal[0].name)`, `edulint/linting/checkers/duplication/duplicate_if.py:669-672` -/
def byName (c : Conj) : Conj := Candidates.sortBy (fun a b => strLe a.1 b.1) c

/-- `edulint/linting/checkers/duplication/duplicate_if.py:643-654` -/
def fromEq : Opnd → Opnd → Option (List Conj)
  | .name x, .const c => some [[(x, c)]]
  | .const c, .name x => some [[(x, c)]]
  | _, _ => none

mutual
/-- `vals_from_simple_test`, `edulint/linting/checkers/duplication/duplicate_if.py:640-676`; `toplevel` is always true, and then names and constants
(lines 634-637) are no simple tests. -/
def vals : Test → Option (List Conj)
  | .eq l r => fromEq l r
  | .or_ ts => (valsAll ts).map List.flatten
  | .and_ ts => (valsAll ts).map fun ds => (product ds).map fun p => byName p.flatten
  | .other _ => none

/-- `edulint/linting/checkers/duplication/duplicate_if.py:659-664` -/
def valsAll : List Test → Option (List (List Conj))
  | [] => some []
  | t :: ts =>
    match vals t with
    | none => none
    | some v => (valsAll ts).map fun vs => v :: vs
end

/-- The loop of `get_fixed_by_container`, `edulint/linting/checkers/duplication/duplicate_if.py:765-779`, with the variables as they are before an
element. -/
def simpleRun {α : Type} : Nat → Nat → Bool → List (Option α) → Nat × Nat
  | s, e, _, [] => (s, e)
  | s, e, true, none :: l => simpleRun (s + 1) e true l
  | s, _, true, some _ :: l => simpleRun s s false l
  | s, e, false, none :: _ => (s, e)
  | s, e, false, some _ :: l => simpleRun s (e + 1) false l

/-- An `if` or an `elif`. -/
structure If where
  test : Test
  /-- it is an `if`, not an `elif` -/
  fresh : Bool
  /-- it has an `else` -/
  hasElse : Bool

/-- The `if`s that are looked at, with what their tests compare, `edulint/linting/checkers/duplication/duplicate_if.py:781-786`. -/
def slice (ifs : List If) : Option (List (If × List Conj)) :=
  let r := simpleRun 0 0 true (ifs.map fun i => vals i.test)
  if r.2 + 1 < r.1 + 3 ∨ (r.1 ≠ 0 ∧ r.2 + 1 ≠ ifs.length) then none
  else some (((ifs.take (r.2 + 1)).drop r.1).filterMap fun i => (vals i.test).map fun v => (i, v))

/-- `edulint/linting/checkers/duplication/duplicate_if.py:788-794`: all conjunctions are about the same variables. No
disjunction is empty. -/
def sameVars (ds : List (List Conj)) : Bool :=
  match ds.flatten with
  | c :: cs => cs.all fun c' => decide (c'.map (·.1) = c.map (·.1))
  | [] => true

/-- A place where bodies differ. -/
structure Avar where
  /-- it is a name -/
  name : Bool
  /-- it is a constant -/
  const : Bool
  /-- the first of the values is an `int` -/
  int : Bool

/-- What is given. -/
structure Given where
  /-- the places where bodies differ, without those that differ in the same way, if the bodies can be anti-unified -/
  avars : Option (List Avar)
  /-- `core_contains_other_duplication` -/
  otherDuplication : Bool
  /-- `called_aunify_var` -/
  called : Bool
  /-- `test_variables_change` -/
  varsChange : Bool
  tokensBefore : Nat
  stmtsBefore : Nat
  tokensAfter : Nat
  stmtsAfter : Nat

/-- What is suggested. -/
inductive Symbol where
  | toList
  | toDict
deriving DecidableEq

def Const.int? : Const → Option Int
  | .int i => some i
  | .bool b => some (if b then 1 else 0)
  | _ => none

/-- The number that the only variable is compared with. -/
def single? : Conj → Option Int
  | [(_, k)] => k.int?
  | _ => none

/-- The numbers that the only variable is compared with, if there is one and all are `int`s,
`edulint/linting/checkers/duplication/duplicate_if.py:692-698`. -/
def ints : List Conj → Option (List Int)
  | [] => some []
  | c :: cs =>
    match single? c, ints cs with
    | some i, some l => some (i :: l)
    | _, _ => none

/-- `edulint/linting/checkers/duplication/duplicate_if.py:692-707` and `757` -/
def symbol (ds : List (List Conj)) : Symbol :=
  match ints ds.flatten with
  | none => .toDict
  | some l => if Candidates.sortBy (fun a b => decide (a ≤ b)) l = (List.range ds.flatten.length).map Int.ofNat then .toList else .toDict

/-- `edulint/linting/checkers/duplication/duplicate_if.py:814-819` -/
def fewCases (ds : List (List Conj)) (avars : List Avar) : Bool :=
  match ds with
  | (_ :: _ :: _) :: _ => avars.all fun a => a.name || (a.const && a.int)
  | _ => true

/-- `get_fixed_by_container`, `edulint/linting/checkers/duplication/duplicate_if.py:763-845`: the message, if any, with the `if`s that it is for. -/
def container (ifs : List If) (g : List If → Given) : Option (Symbol × List If) :=
  match slice ifs with
  | none => none
  | some l =>
    let ds := l.map (·.2)
    let g := g (l.map (·.1))
    match sameVars ds, g.avars with
    | true, some avars =>
      if decide (avars.length > 2) || g.otherDuplication || g.called || g.varsChange || !fewCases ds avars then none
      else if LoopMerge.saves g.tokensBefore g.stmtsBefore g.tokensAfter g.stmtsAfter then some (symbol ds, l.map (·.1))
      else none
    | _, _ => none

/-- The dictionary, with the numbers of `if`s in place of the values, `edulint/linting/checkers/duplication/duplicate_if.py:679-690` and `708-726`;
equal keys of a dictionary are one, and the last value is kept. -/
def table (ds : List (List Conj)) : List (List Key × Nat) :=
  (ds.zipIdx).flatMap fun (d, i) => d.map fun c => (c.map (·.2.key), i)

end Verif.IfContainer
