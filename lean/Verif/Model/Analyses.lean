import Verif.Base.Str
import Verif.Model.Flow

/-!
When the analysis of variables fails, `edulint/linting/analyses/patcher.py:17-33`, and what then becomes of the checks that need it,
`edulint/linting/analyses/utils.py:34-43`.

The analysis of definitions (`collect_reaching_definitions`, C30 and C139) is not modelled here: it does not raise `UnknowableLocalsException`.
-/

namespace Verif.Analyses

mutual
/-- Nodes of the tree. Children are listed in the order in which `VarEventListener` visits them, which for assignments and comprehensions is not the
one in which they are written (`edulint/linting/analyses/variable_scope.py:229-236, 289-310`). -/
inductive T where
  /-- a name that is read -/
  | name (x : Str)
  /-- the function, and then the arguments -/
  | call (line : Nat) (func : T) (args : Ts)
  /-- `del e.a` -/
  | delAttr (e : T)
  | lambda (defaults : Ts) (body : T)
  /-- `notes` are the annotations of parameters and the defaults of those that are not keyword-only; `other` are decorators, the annotation of what is
  returned, and the defaults of keyword-only parameters. -/
  | func (notes other : Ts) (body : Ts)
  /-- `other` are decorators, bases and keywords. -/
  | cls (other : Ts) (body : Ts)
  /-- any other node -/
  | node (children : Ts)

/-- Lists of nodes. -/
inductive Ts where
  | nil
  | cons (t : T) (rest : Ts)
end

/-- The nodes of a list. -/
def Ts.list : Ts → List T
  | .nil => []
  | .cons t rest => t :: rest.list

/-- A call that the analysis gives up at: what is called, and the line. -/
structure Culprit where
  name : Str
  line : Nat
deriving DecidableEq

/-- `node.func.as_string() in ("locals", "globals")`, `edulint/linting/analyses/variable_scope.py:326`; only a name is written like this. -/
def unknowable : T → Option Str
  | .name x => if x = "locals".toList ∨ x = "globals".toList then some x else none
  | _ => none

/-- `isinstance(child, (nodes.FunctionDef, nodes.AsyncFunctionDef, nodes.ClassDef))`, `edulint/linting/analyses/variable_scope.py:169` -/
def T.isDef : T → Bool
  | .func _ _ _ => true
  | .cls _ _ => true
  | _ => false

mutual
/-- `self.visit(node)`: the names that are visited, and the call at which the exception is raised.

`is_builtin(node.func)` in `edulint/linting/analyses/variable_scope.py:326` is always true: it looks for an event of this very node
(`edulint/linting/analyses/utils.py:122-144`), and such an event is only added when the name is visited (336-337), which would be in line 331; nor does
`strip_to_name` (`edulint/linting/analyses/var_events.py:129-140`) get to the function of a call. -/
def visit : T → List Str × Option Culprit
  -- lines 336-337
  | .name x => ([x], none)
  -- lines 325-331
  | .call l f args =>
    match unknowable f with
    | some x => ([], some ⟨x, l⟩)
    | none =>
      match visit f with
      | (xs, some c) => (xs, some c)
      | (xs, none) => (xs ++ (visitMany args).1, (visitMany args).2)
  -- lines 357-361: no child is visited
  | .delAttr _ => ([], none)
  -- lines 222-227
  | .lambda _ b => visit b
  -- lines 180-213
  | .func notes _ body =>
    match visitMany notes with
    | (xs, some c) => (xs, some c)
    | (xs, none) =>
      match visitStmts body with
      | (ys, some c) => (xs ++ ys, some c)
      | (ys, none) => (xs ++ ys ++ (visitDefs body).1, (visitDefs body).2)
  -- lines 218-220
  | .cls _ body =>
    match visitStmts body with
    | (xs, some c) => (xs, some c)
    | (xs, none) => (xs ++ (visitDefs body).1, (visitDefs body).2)
  -- `generic_visit`, `edulint/linting/analyses/utils.py:114-119`
  | .node cs => visitMany cs

/-- `visit_many`, `edulint/linting/analyses/utils.py:110-111` -/
def visitMany : Ts → List Str × Option Culprit
  | .nil => ([], none)
  | .cons t rest =>
    match visit t with
    | (xs, some c) => (xs, some c)
    | (xs, none) => (xs ++ (visitMany rest).1, (visitMany rest).2)

/-- `statements_before_definitions`, `edulint/linting/analyses/variable_scope.py:164-174`: the statements that are no definitions. -/
def visitStmts : Ts → List Str × Option Culprit
  | .nil => ([], none)
  | .cons t rest =>
    if t.isDef then visitStmts rest
    else
      match visit t with
      | (xs, some c) => (xs, some c)
      | (xs, none) => (xs ++ (visitStmts rest).1, (visitStmts rest).2)

/-- `self.visit_many(self.statements_before_definitions(node))`: the definitions, afterwards. -/
def visitDefs : Ts → List Str × Option Culprit
  | .nil => ([], none)
  | .cons t rest =>
    if t.isDef then
      match visit t with
      | (xs, some c) => (xs, some c)
      | (xs, none) => (xs ++ (visitDefs rest).1, (visitDefs rest).2)
    else visitDefs rest
end

/-- `visit_module`, `edulint/linting/analyses/variable_scope.py:176-178`, in `VarEventsAnalysis.collect` (20-29). -/
def collect (body : Ts) : List Str × Option Culprit :=
  match visitStmts body with
  | (xs, some c) => (xs, some c)
  | (xs, none) => (xs ++ (visitDefs body).1, (visitDefs body).2)

/-- Digits of a number. -/
def digits (n : Nat) : Str := (toString n).toList

/-- The text of the exception, `edulint/linting/analyses/variable_scope.py:327-330` -/
def message (file : Str) (c : Culprit) : Str :=
  "call to ".toList ++ c.name ++ " on line ".toList ++ digits c.line ++ " in ".toList ++ file ++
    ";  unable to determine variable scopes. This may disable some detectors.".toList

/-- A module: its path, its statements as the control flow graph has them, and as nodes of the tree. -/
structure Module where
  file : Str
  flow : Flow.Body
  body : Ts

/-- `ast.cfg_loc.block.locs`: the locations of the block that the graph begins with after all statements were visited,
`edulint/linting/analyses/cfg/visitor.py:78-81`, `edulint/linting/analyses/cfg/graph.py:242-245`. -/
def Module.first (m : Module) : List Nat :=
  let g := (Flow.visitBody m.flow [] (Flow.Graph.init, 0)).1
  g.locs g.start

/-- What `run_analyses` leaves: `var_events.successful`, and what is logged as a warning. -/
structure Outcome where
  successful : Bool
  warnings : List Str
deriving DecidableEq

/-- `run_analyses`, `edulint/linting/analyses/patcher.py:17-33` -/
def runAnalyses (m : Module) : Outcome :=
  if m.first = [] then ⟨false, []⟩
  else
    match (collect m.body).2 with
    | none => ⟨true, []⟩
    | some c => ⟨false, [message m.file c]⟩

/-- `requires_data_dependency_analysis(default_return)(func)`, `edulint/linting/analyses/utils.py:34-43` -/
def guarded {α β : Type} (defaultReturn : β) (func : α → β) (m : Module) (node : α) : β :=
  if (runAnalyses m).successful then func node else defaultReturn

end Verif.Analyses
