import Verif.Base.Str

/-!
Whether variables of an expression may be modified by statements, `edulint/linting/analyses/mutability.py`.

Types that are guessed are given: for each value whether only types that cannot be modified are possible. Statements are lists of what they do with
variables and of calls, with the definitions that may be what is called; the code of a definition is all of its body.
-/

namespace Verif.Mutability

/-- Variables. -/
abbrev Var := Nat

/-- Where a variable is in the expression. Truth values say that only types that cannot be modified are guessed. -/
inductive Kind where
  /-- the variable is used -/
  | name (immutable : Bool)
  /-- it is the target of an assignment, with others (`x = y = …`) or alone -/
  | assign (chained : Bool) (immutable : Bool)
  | aug (immutable : Bool)
  /-- `x: int = …` with or without a value -/
  | ann (immutable : Option Bool)
  /-- it is a target elsewhere: within a tuple or a list, of `for`, `with` or `:=` -/
  | target
  /-- the node is not a name: an import, a function -/
  | other

/-- `_can_be_mutable`, `edulint/linting/analyses/mutability.py:11-15` -/
def canBeMutable : Option Bool → Bool
  | none => false
  | some immutable => !immutable

/-- `_can_be_mutable_name`, `edulint/linting/analyses/mutability.py:18-37`. The parent of a name in a tuple is the tuple and not the assignment, so that
what is in the lines 33-35 is never done. -/
def canBeMutableName : Kind → Bool
  | .name immutable => canBeMutable (some immutable)
  | .aug immutable => canBeMutable (some immutable)
  | .ann immutable => canBeMutable immutable
  | .assign chained immutable => if chained then true else canBeMutable (some immutable)
  | .target => false
  | .other => false

/-- `may_contain_mutable_var`, `edulint/linting/analyses/mutability.py:40-47` -/
def mayContainMutable (node : List (Var × Kind)) : Bool := node.any fun v => canBeMutableName v.2

/-- What a statement does. -/
inductive Ev where
  /-- a variable is assigned to, or its object is modified -/
  | modify (x : Var)
  /-- something that may be a part of any object is modified without the name of a variable: `f(y)[0] = 1` -/
  | mutate
  /-- a call of a name with the definitions of it: the body of a function or a lambda, or something else,
  `edulint/linting/analyses/mutability.py:50-63` -/
  | call (f : Str) (defs : List (Option Nat))
  /-- a call of something else than a name, such as a method, or of a function that is passed to another -/
  | indirect (body : Nat)

/-- `modified_in`, `edulint/linting/analyses/data_dependency.py:831-836` -/
def modifiedIn (xs : List Var) (evs : List Ev) : Bool :=
  evs.any fun e => match e with
    | .modify x => xs.contains x
    | _ => false

/-- `_vars_from_node_may_be_directly_modified_in`, `edulint/linting/analyses/mutability.py:93-96` -/
def directly (node : List (Var × Kind)) (evs : List Ev) : Bool := mayContainMutable node || modifiedIn (node.map (·.1)) evs

/-- The definitions that the loops go through, `edulint/linting/analyses/mutability.py:69-73` -/
def calls (evs : List Ev) : List (Str × Option Nat) :=
  evs.flatMap fun e => match e with
    | .call f defs => defs.map fun d => (f, d)
    | _ => []

/-- `_may_contain_global_variable_modified_in_function`, `edulint/linting/analyses/mutability.py:66-90`, with the names that were checked. The number
bounds how deep calls are nested; it is enough if it is the number of names. -/
def throughCalls (bodies : Nat → List Ev) (node : List (Var × Kind)) : Nat → List (Str × Option Nat) → List Str → Bool × List Str
  | _, [], checked => (false, checked)
  | 0, _ :: _, checked => (true, checked)
  | n + 1, (f, d) :: rest, checked =>
    if checked.contains f then throughCalls bodies node (n + 1) rest checked
    else
      match d with
      | none => (true, f :: checked)
      | some b =>
        if directly node (bodies b) then (true, f :: checked)
        else
          match throughCalls bodies node n (calls (bodies b)) (f :: checked) with
          | (true, checked) => (true, checked)
          | (false, checked) => throughCalls bodies node (n + 1) rest checked
termination_by n l => (n, l.length)

/-- `vars_from_node_may_be_modified_in`, `edulint/linting/analyses/mutability.py:99-103` -/
def mayBeModified (bodies : Nat → List Ev) (n : Nat) (node : List (Var × Kind)) (evs : List Ev) : Bool :=
  directly node evs || (throughCalls bodies node n (calls evs) []).1

end Verif.Mutability
