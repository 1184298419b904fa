import Verif.Model.Flow
import Verif.Model.Candidates

/-!
# Statements that the search for duplicate code looks at

`get_stmt_locs` of `edulint/linting/analyses/cfg/utils.py` and `get_statement_nodes` of `edulint/linting/checkers/duplication/checker.py`.

Nodes are numbered, a location is the number of its node. Statements are those of `Model/Flow.lean`, which here have a number if they are not
locations themselves: `if`, loops, `with` and `try`. What the `match` statement and asynchronous loops and `with`s contain is told apart, too.
-/

namespace Verif.StmtNodes

mutual
/-- Statements. -/
inductive Stmt where
  /-- simple statements, definitions of functions and classes -/
  | simple (n : Nat)
  | jump (j : Flow.Jump) (n : Nat)
  /-- `match`, `async for`, `async with`: the location is the whole statement. -/
  | whole (n : Nat) (inside : Body)
  | cond (n test : Nat) (body orelse : Body)
  | loop (n test : Nat) (body orelse : Body)
  | each (n iter target : Nat) (body orelse : Body)
  /-- `first as name`, and the other items -/
  | enter (n first : Nat) (name : Option Nat) (items : List (Nat × Option Nat)) (body : Body)
  /-- `first` and `rest` are the body of `try`. -/
  | try_ (n : Nat) (first : Stmt) (rest : Body) (handlers : Handlers) (orelse finally_ : Body)

/-- Lists of statements. -/
inductive Body where
  | nil
  | cons (s : Stmt) (rest : Body)

/-- The clauses of a `try`. -/
inductive Handlers where
  | nil
  | cons (exceptions : List Str) (name : Option Nat) (body : Body) (rest : Handlers)
end

/-- The node of a statement. -/
def Stmt.id : Stmt → Nat
  | .simple n => n
  | .jump _ n => n
  | .whole n _ => n
  | .cond n _ _ _ => n
  | .loop n _ _ _ => n
  | .each n _ _ _ _ => n
  | .enter n _ _ _ _ => n
  | .try_ n _ _ _ _ _ => n

/-- The nodes of an item of a `with`. -/
def itemNodes (item : Nat × Option Nat) : List Nat := item.1 :: item.2.toList

mutual
/-- The statement that the control flow graph is built for. -/
def Stmt.flow : Stmt → Flow.Stmt
  | .simple n => .simple n
  | .jump j n => .jump j n
  | .whole n _ => .simple n
  | .cond _ t b e => .cond t b.flow e.flow
  | .loop _ t b e => .loop t b.flow e.flow
  | .each _ i t b e => .each i t b.flow e.flow
  | .enter _ i name items b => .enter i (name.toList ++ items.flatMap itemNodes) b.flow
  | .try_ _ f r hs e l => .try_ f.flow r.flow hs.flow e.flow l.flow
/-- All statements. -/
def Body.flow : Body → Flow.Body
  | .nil => .nil
  | .cons s rest => .cons s.flow rest.flow
/-- All clauses. -/
def Handlers.flow : Handlers → Flow.Handlers
  | .nil => .nil
  | .cons xs name b rest => .cons xs name b.flow rest.flow
end

/-! ### `get_stmt_locs` -/

/-- What is asked of the parent of a node: its class, and some of its children. -/
inductive Parent where
  | for_ (n iter target : Nat)
  | with_ (n : Nat) (items : List (Nat × Option Nat))
  /-- `if` and `while` -/
  | cond (n test : Nat)
  /-- `first` is `body[0]`. -/
  | try_ (n first : Nat)
  | other

/-- A location: its node, whether that is an `Arguments`, and the parent of the node. -/
structure Place where
  node : Nat
  args : Bool
  parent : Parent

/-- `get_stmt_locs`, `edulint/linting/analyses/cfg/utils.py:395-423`: the nodes of the locations. -/
def stmtLocs (l : Place) : Option Nat × Option Nat :=
  if l.args then (none, none) else
  match l.parent with
  | .for_ n iter target =>
    if l.node = target then (none, none) else if l.node = iter then (none, some n) else (some l.node, none)
  | .with_ n items =>
    match items with
    | [] => (some l.node, none)
    | item :: rest =>
      if l.node = item.1 then (none, some n)
      else if l.node ∈ (item :: rest).flatMap itemNodes then (none, none) else (some l.node, none)
  | .cond n test => if l.node = test then (none, some n) else (some l.node, none)
  | .try_ n first => if l.node = first then (some l.node, some n) else (some l.node, none)
  | .other => (some l.node, none)

/-- `for stmt_loc in get_stmt_locs(loc) if stmt_loc is not None` -/
def given (l : Place) : List Nat := (stmtLocs l).1.toList ++ (stmtLocs l).2.toList

mutual
/-- The locations of a statement, and the parents of their nodes: those that `CFGVisitor` adds, see `Model/Flow.lean`; what is in a `finally` has
none. -/
def Stmt.places (par : Parent) : Stmt → List Place
  | .simple n => [⟨n, false, par⟩]
  | .jump _ n => [⟨n, false, par⟩]
  | .whole n _ => [⟨n, false, par⟩]
  | .cond n t b e => ⟨t, false, .cond n t⟩ :: (b.places (.cond n t) ++ e.places (.cond n t))
  | .loop n t b e => ⟨t, false, .cond n t⟩ :: (b.places (.cond n t) ++ e.places (.cond n t))
  | .each n i t b e => ⟨i, false, .for_ n i t⟩ :: ⟨t, false, .for_ n i t⟩ :: (b.places (.for_ n i t) ++ e.places (.for_ n i t))
  | .enter n i name items b =>
    ⟨i, false, .with_ n ((i, name) :: items)⟩ ::
      ((name.toList ++ items.flatMap itemNodes).map (fun x => ⟨x, false, .with_ n ((i, name) :: items)⟩) ++
        b.places (.with_ n ((i, name) :: items)))
  | .try_ n f r hs e _ =>
    f.places (.try_ n f.id) ++ (r.places (.try_ n f.id) ++ (hs.places ++ e.places (.try_ n f.id)))
/-- The locations of statements. -/
def Body.places (par : Parent) : Body → List Place
  | .nil => []
  | .cons s rest => s.places par ++ rest.places par
/-- The locations of clauses, whose nodes have an `ExceptHandler` as parent. -/
def Handlers.places : Handlers → List Place
  | .nil => []
  | .cons _ name b rest => name.toList.map (fun n => ⟨n, false, .other⟩) ++ (b.places .other ++ rest.places)
end

/-! ### `get_statement_nodes` -/

/-- What decides whether a statement is looked at. -/
inductive Kind where
  | assert_ | classDef | functionDef | comment | pass
  /-- an import, and whether it is in the body of the module -/
  | import_ (top : Bool)
  /-- an assignment, and how many uses each of its events has -/
  | assign (uses : List Nat)
  | other
deriving DecidableEq

/-- `break_on_stmt`, `edulint/linting/checkers/duplication/checker.py:95-96` -/
def breakOn : Kind → Bool
  | .assert_ | .classDef | .functionDef => true
  | _ => false

/-- `skip_stmt`, `edulint/linting/checkers/duplication/checker.py:99-108` -/
def skip : Kind → Bool
  | .comment | .pass => true
  | .import_ top => top
  | .assign uses => uses.sum == 0
  | _ => false

/-- `include_in_stmts`, `edulint/linting/checkers/duplication/checker.py:111-112` -/
def included (k : Kind) : Bool := !breakOn k && !skip k

/-- The line and the column of a node; nodes that are statements or names have a column. -/
abbrev Position := Nat → Nat × Nat

/-- The order of the positions. -/
def upTo (pos : Position) (m n : Nat) : Bool := decide ((pos m).1 < (pos n).1 ∨ (pos m).1 = (pos n).1 ∧ (pos m).2 ≤ (pos n).2)

/-- `get_statement_nodes`, `edulint/linting/checkers/duplication/checker.py:115-129`; `locs` are the locations that `successors_from_loc` yields. -/
def statementNodes (pos : Position) (kind : Nat → Kind) (locs : List Place) : List Nat :=
  Candidates.sortBy (upTo pos) ((locs.flatMap given).filter fun n => included (kind n))

/-- The parts of a program: the body of the module, and the functions with their arguments. -/
structure Part where
  args : Option Nat
  body : Body

/-- All locations of a module or function. -/
def Part.places (u : Part) : List Place := u.args.toList.map (fun n => ⟨n, true, .other⟩) ++ u.body.places .other

end Verif.StmtNodes
