import Verif.Model.Repetition

/-!
Whether what branches have in common is a repetition itself: `get_common_parent`, `edulint/linting/checkers/duplication/utils.py:100-123`, and
`core_contains_other_duplication`, `edulint/linting/checkers/duplication/duplicate_if.py:131-158`.

A node is given by its path, from itself up to a statement: the position in its parent first, the number of the statement last. Statements have no parent, since
that of the core is not set.
-/

namespace Verif.CommonParent

abbrev Path := List Nat

/-- A node and its ancestors (`node_ancestors`), from within. -/
def withAncestors : Path → List Path
  | [] => []
  | i :: p => (i :: p) :: withAncestors p

/-- `to_parent`, `edulint/linting/checkers/duplication/utils.py:100-105`; `leaf` tells which nodes are constants or names. -/
def toParent (leaf : Path → Bool) (hole : Path) : Except PyErr Path :=
  match hole.tail with
  | [] => .error .assertionError
  | p => if leaf p then (match p.tail with | [] => .error .assertionError | q => .ok q) else .ok p

/-- `get_common_parent`, `edulint/linting/checkers/duplication/utils.py:108-123` -/
def commonParent (leaf : Path → Bool) : List Path → Except PyErr (Option Path)
  | [] => .ok none
  | [n] =>
    match toParent leaf n with
    | .error e => .error e
    | .ok p => .ok (some p)
  | n :: m :: ns => .ok ((withAncestors n).find? fun p => (m :: ns).all fun n' => decide (p ∈ withAncestors n'))

/-- `body_contains_other_duplication`, `edulint/linting/checkers/duplication/duplicate_if.py:143-158`; `candidate` is `is_duplication_candidate`, and `unifies` tells if `antiunify`
returns something. -/
def bodyRepeats {σ : Type} (candidate unifies : List (List σ) → Bool) (body : List σ) : Bool :=
  if body.length < 3 then false else (Py.loopRepetitions body).any fun r => candidate r.2 && unifies r.2

/-- `core_contains_other_duplication`, `edulint/linting/checkers/duplication/duplicate_if.py:131-140`. `display` tells which nodes are lists, tuples, dictionaries or sets, `first`
is the first branch, and `elements` gives what such a node has in it there. -/
def coreRepeats {σ : Type} (candidate unifies : List (List σ) → Bool) (leaf display : Path → Bool) (first : List σ) (elements : Path → List σ) (holes : List Path) :
    Except PyErr Bool :=
  match commonParent leaf holes with
  | .error e => .error e
  | .ok none => .ok (bodyRepeats candidate unifies first)
  | .ok (some p) => .ok (display p && bodyRepeats candidate unifies (elements p))

end Verif.CommonParent
