import Verif.Base.Str
import Verif.Model.LoopMerge

/-!
Blocks that could be calls of a function that is there already: `similar_to_call`, `edulint/linting/checkers/duplication/duplicate_block.py:151-343`.

What the analysis of data and anti-unification say is given: which definitions of a name reach a block, where blocks differ, which variables are
defined before and used after. Expressions are trees that are identical if they are equal.
-/

namespace Verif.CallInstead

/-- Expressions: what is applied to other expressions is a number. -/
inductive E where
  | name (x : Str)
  | const (n : Nat)
  | op (k : Nat) (a b : E)
  deriving DecidableEq

/-- A statement in a function: which one it is and, if it is `return`, the values. Without a value or with a tuple these are none or those in it,
`edulint/linting/checkers/duplication/duplicate_block.py:264-269`. -/
structure Stmt where
  id : Nat
  ret : Option (List E)

/-- A function: which node it is, its name, its body, the scope it is defined in and how many parameters it has. -/
structure Func where
  id : Nat
  name : Str
  body : List Stmt
  outer : Nat
  params : Nat

/-- A name that is used: the expressions it is in within its statement, beginning with the name itself, for any name in its place. -/
structure Use where
  name : Str
  around : List (Str → E)

/-- A variable: its name and scope. -/
abbrev Var := Str × Nat

/-- A block with what is known about it. -/
structure Part where
  /-- its statements -/
  stmts : List Nat
  /-- the function of which the parent of its first statement is, if that is one -/
  func : Option Func
  /-- the scopes it is in, from the inner to the outer -/
  scopes : List Nat
  /-- the nodes that define a name before the block, `get_defs_at` -/
  defs : Str → List Nat
  /-- the variables that are defined before it and used in it -/
  before : List Var
  /-- the variables that are assigned to in it -/
  assigned : List Var
  /-- the variables of it that are used after it with these uses -/
  after : List (Var × List Use)
  tokens : Nat
  stmtCount : Nat

/-- Where a definition of a variable of the function is: in the block, a parameter of the function, or elsewhere. -/
inductive Place where
  | block | param | elsewhere
  deriving DecidableEq

/-- A place where blocks differ. -/
structure Avar where
  /-- it is the name in a node that is a name -/
  isName : Bool
  /-- the names in the blocks, where it is one -/
  names : List (Option Str)
  /-- in which blocks there is a node that is a name -/
  nodes : List Bool
  /-- in which blocks it depends on something that is defined in the block, `edulint/linting/checkers/duplication/duplicate_block.py:249-257` -/
  inside : List Bool
  /-- the definitions of the variable that it is in the function, if it is one, `edulint/linting/checkers/duplication/duplicate_block.py:278-288` -/
  callee : Option (List Place)

/-- `is_possible_callee`, `edulint/linting/checkers/duplication/duplicate_block.py:151-158`, without the assertion -/
def possibleCallee (f : Func) (b : List Nat) : Bool :=
  if b.length = f.body.length then true
  else decide (b = (f.body.take b.length).map (·.id)) && (f.body[b.length]?).any (·.ret.isSome)

/-- `get_possible_callees`, `edulint/linting/checkers/duplication/duplicate_block.py:161-171` -/
def callees (parts : List Part) : List (Nat × Func) :=
  parts.zipIdx.filterMap fun p => p.1.func.bind fun f => if possibleCallee f p.1.stmts then some (p.2, f) else none

/-- The blocks that are not the one of the function. -/
def others (parts : List Part) (i : Nat) : List (Part × Nat) := parts.zipIdx.filter (·.2 ≠ i)

/-- `edulint/linting/checkers/duplication/duplicate_block.py:212-222`; `scope_is_nested` is
`edulint/linting/analyses/data_dependency.py:912-919`. -/
def callable (parts : List Part) (i : Nat) (f : Func) : Bool :=
  (others parts i).any (fun p => p.1.scopes.contains f.outer) && !(others parts i).any fun p => (p.1.defs f.name).any (· != f.id)

/-- What the function returns after the block, `edulint/linting/checkers/duplication/duplicate_block.py:260-269` -/
def returnedBy (f : Func) (b : List Nat) : List E := ((f.body[b.length]?).bind (·.ret)).getD []

/-- The name in the function for a name in the block `j`, `edulint/linting/checkers/duplication/duplicate_block.py:177-181` -/
def renamed (avars : List Avar) (i j : Nat) (x : Str) : Str :=
  match avars.find? (fun a => a.names[j]? == some (some x)) with
  | some a => ((a.names[i]?).join).getD x
  | none => x

/-- `returns_used_value`, `edulint/linting/checkers/duplication/duplicate_block.py:174-191` -/
def returnsUsed (returned : List E) (i j : Nat) (avars : List Avar) (u : Use) : Bool :=
  u.around.any fun c => returned.contains (c (renamed avars i j u.name))

/-- `returns_used_values`, `edulint/linting/checkers/duplication/duplicate_block.py:194-195` -/
def returnsAll (returned : List E) (i j : Nat) (avars : List Avar) (us : List Use) : Bool := us.all (returnsUsed returned i j avars)

/-- `var_only_modified`, `edulint/linting/checkers/duplication/duplicate_block.py:198-203` -/
def onlyModified (p : Part) (v : Var) : Bool := p.before.contains v && !p.assigned.contains v

/-- `edulint/linting/checkers/duplication/duplicate_block.py:296-301` -/
def provides (parts : List Part) (i : Nat) (avars : List Avar) (returned : List E) : Bool :=
  (others parts i).all fun p => p.1.after.all fun v => onlyModified p.1 v.1 || returnsAll returned i p.2 avars v.2

/-- `edulint/linting/checkers/duplication/duplicate_block.py:303-315`: the function is called for what it does only. -/
def sideEffect (parts : List Part) (i : Nat) (avars : List Avar) (returned : List E) : Bool :=
  (others parts i).all (fun p => p.1.after.all fun v => onlyModified p.1 v.1) &&
    !(others parts i).any fun p => p.1.after.any fun v => returnsAll returned i p.2 avars v.2

/-- `edulint/linting/checkers/duplication/duplicate_block.py:316-328`; `b` is the block of the function. -/
def saves (parts : List Part) (f : Func) (b : Part) (returned : List E) : Bool :=
  LoopMerge.saves (parts.map (·.tokens)).sum (parts.map (·.stmtCount)).sum (b.tokens + (parts.length - 1) * (3 + f.params + returned.length))
    (b.stmtCount + parts.length - 1)

/-- What differs is in the function a name that is defined in the block or a parameter,
`edulint/linting/checkers/duplication/duplicate_block.py:235-241`, `248-258` and `273-290`. -/
def fits (parts : List Part) (i : Nat) (avars : List Avar) : Bool :=
  avars.all (fun a => a.isName || (a.nodes[i]?).getD false) &&
    !avars.any (fun a => !a.isName && (others parts i).any fun p => (a.inside[p.2]?).getD false) &&
    avars.all fun a => a.callee.any fun ds => ds.all (· != .elsewhere)

/-- `similar_to_call`, `edulint/linting/checkers/duplication/duplicate_block.py:206-343`: the name in the message and the block it is for. `avars` is
what the second anti-unification gives, `edulint/linting/checkers/duplication/duplicate_block.py:224-233`. -/
def toCall (parts : List Part) (avars : Option (List Avar)) : Option (Str × Nat) :=
  match callees parts with
  | [(i, f)] =>
    if callable parts i f then
      match avars, parts[i]? with
      | some avars, some b =>
        if fits parts i avars && provides parts i avars (returnedBy f b.stmts) &&
            !(sideEffect parts i avars (returnedBy f b.stmts) && !saves parts f b (returnedBy f b.stmts)) then
          some (f.name, if i = 0 then 1 else 0)
        else none
      | _, _ => none
    else none
  | _ => none

end Verif.CallInstead
