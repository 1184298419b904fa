import Verif.Base.Str

/-!
Which placeholders are taken for the same one, `get_unique_avars`, `edulint/linting/checkers/duplication/utils.py:130-139`, and what is assigned to helper variables for them,
`edulint/linting/checkers/duplication/duplicate_if.py:613-621`.
-/

namespace Verif.UniqueAvars

inductive NumType where
  | int | bool | float
  deriving DecidableEq

/-- What a placeholder stands for in a fragment: a number (given by its type and value; `True` is 1), a text, which is also what a name is; `None`; or a node. Nodes are
numbered. -/
inductive Val where
  | num (t : NumType) (v : Int)
  | str (s : Str)
  | none
  | node (n : Nat)
  deriving DecidableEq

/-- `==` in Python: numbers are compared by value; nodes are equal only to themselves. -/
def Val.pyEq : Val → Val → Bool
  | .num _ v, .num _ w => v = w
  | .str s, .str t => s = t
  | .none, .none => true
  | .node n, .node m => n = m
  | _, _ => false

/-- `==` of tuples -/
def tupleEq : List Val → List Val → Bool
  | [], [] => true
  | a :: as, b :: bs => a.pyEq b && tupleEq as bs
  | _, _ => false

/-- `AunifyVar`, `edulint/linting/analyses/antiunify.py:17-23`; `inName` is `isinstance(avar.parent, nodes.Name)`. -/
structure Avar where
  name : Str
  subs : List Val
  inName : Bool
  deriving DecidableEq

/-- `seen.get(var_vals, default)`, `edulint/linting/checkers/duplication/utils.py:134` -/
def lookup (seen : List (List Val × Str)) (vals : List Val) (default : Str) : Str :=
  match seen.find? fun p => tupleEq p.1 vals with
  | some p => p.2
  | none => default

/-- `get_unique_avars`, `edulint/linting/checkers/duplication/utils.py:130-139`. Setting `seen` again for equal values sets it to the name that it has; so the new pair may as well
be put to the end. -/
def uniqueFrom (seen : List (List Val × Str)) : List Avar → List Avar
  | [] => []
  | a :: as => if lookup seen a.subs a.name ≠ a.name then uniqueFrom seen as else a :: uniqueFrom (seen ++ [(a.subs, a.name)]) as

def unique (avars : List Avar) : List Avar := uniqueFrom [] avars

/-- What the code has. -/
inductive Node where
  | old (n : Nat)
  | name (s : Val)
  | const (v : Val)
  deriving DecidableEq

/-- `to_node`, `edulint/linting/checkers/duplication/utils.py:91-97`, for a value of the placeholder -/
def toNode (a : Avar) (v : Val) : Node :=
  match v with
  | .node n => .old n
  | v => if a.inName then .name v else .const v

/-- What is assigned in the branch with a number, `edulint/linting/checkers/duplication/duplicate_if.py:615-621`: names of variables and values -/
def assigned (avars : List Avar) (k : Nat) : List (Str × Node) := (unique avars).filterMap fun a => a.subs[k]?.map fun v => (a.name, toNode a v)

end Verif.UniqueAvars
