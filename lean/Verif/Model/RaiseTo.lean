import Verif.Model.Flow

/-!
Which clause of a `try` a `raise` in its body is linked to, `edulint/linting/analyses/cfg/visitor.py:315-327,346-366,428-458`.
-/

namespace Verif.Flow

/-- Expressions after `raise` and `except`; other ones (subscripts, keyword arguments) are left out. -/
inductive Exc where
  | name (x : Str)
  | attr (e : Exc) (a : Str)
  | call (f : Exc) (args : List Exc)
  | tuple (es : List Exc)
  | const

mutual
/-- `nodes_of_class(nodes.Name)`: a node comes before its children. -/
def Exc.names : Exc → List Str
  | .name x => [x]
  | .attr e _ => e.names
  | .call f args => f.names ++ namesAll args
  | .tuple es => namesAll es
  | .const => []

@[inherit_doc Exc.names]
def namesAll : List Exc → List Str
  | [] => []
  | e :: es => e.names ++ namesAll es
end

/-- `_extract_exceptions`, `edulint/linting/analyses/cfg/visitor.py:428-442`; there is no expression in `except:`. -/
def extractExceptions : Option Exc → List Str
  | none => []
  | some e => e.names

/-- `_get_raise_exc`, `edulint/linting/analyses/cfg/visitor.py:445-458`; `none` stands for `Raise` without a name. A cause (`raise … from …`) is left out; its names come
after those of the exception. -/
def raiseExc : Option Exc → Option Str
  | none => none
  | some e => e.names.head?

/-- The boundaries of a `try` while its body is visited, from the top of the stack, `edulint/linting/analyses/cfg/visitor.py:346-366`: those of the first clause are on
top. Clauses are given with their blocks; `after` is the block after the `try`. -/
def tryExits (clauses : List (Option Exc × Nat)) (after : Nat) : List Exits :=
  clauses.flatMap (fun c => clauseExits (extractExceptions c.1) c.2) ++ [[(.raise none, after)]]

/-- The block that a `raise` in the body is linked to, `edulint/linting/analyses/cfg/visitor.py:317-327`; `outer` are the boundaries around the `try`. -/
def raiseTo (clauses : List (Option Exc × Nat)) (after : Nat) (outer : List Exits) (raised : Option Exc) : Option Nat :=
  jumpTo (.raise (raiseExc raised)) (tryExits clauses after ++ outer)

end Verif.Flow
