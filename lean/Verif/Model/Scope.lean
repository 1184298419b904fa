import Verif.Base.Str

/-!
Which variable a name stands for, as `edulint/linting/analyses/variable_scope.py` sees it.

A program is given by what `VarEventListener` visits, in the order it does: each occurrence of a name has a number, and each
module, function, class, lambda and comprehension (a scope) has one; the module has the number 0. What a statement consists of:

* an assignment is `block` of its value and its targets, `edulint/linting/analyses/variable_scope.py:289-295`; with an operator, there
  is a `name` before (lines 297-303); with an annotation, the annotation comes first (lines 305-310);
* `if`, `while`, `for`, `with`, `try`, `match` and `x := …` outside of lambdas and comprehensions are a `block` of what they contain,
  in the order of `get_children` (`edulint/linting/analyses/utils.py:114-119`): the target of `for` comes first;
* targets with subscripts or attributes are expressions; that the variable is modified is recorded at the same time and for the
  same name (lines 266-276, 339-361), so it is not distinguished from reading;
* `skipped` are expressions that are not visited at all: decorators, the annotation of the result of a function, defaults of
  arguments that can only be given by name (lines 180-213), base classes and keywords of classes (lines 218-220), defaults of
  lambdas (lines 222-227), and what is not a name in `del` of an attribute (lines 357-361).

Not modelled: `locals()` and `globals()`, for which an exception is raised (lines 325-331), the kinds of events, and
`outside_scope_events` and `call_graph`.
-/

namespace Verif.Scope

/-- A name and the number of its occurrence -/
abbrev Occ := Str × Nat

mutual
/-- Expressions -/
inductive Exp where
  | name (x : Str) (id : Nat)
  /-- any expression with subexpressions -/
  | many (es : Exps)
  /-- expressions that are not visited -/
  | skipped (es : Exps)
  | lam (scope : Nat) (params : List Occ) (body : Exp)
  /-- a comprehension; `walrus` are the names that `:=` assigns to in it, except if the assignment itself is a condition (astroid
  gives such a name the scope around the comprehension, which is not modelled) -/
  | comp (scope : Nat) (gens : Gens) (walrus : List Occ) (elts : Exps)

/-- Several expressions -/
inductive Exps where
  | nil
  | cons (e : Exp) (rest : Exps)

/-- `for … in … if … if …` in a comprehension -/
inductive Gens where
  | nil
  | cons (targets : List Occ) (iter : Exp) (ifs : Exps) (rest : Gens)
end

mutual
/-- Statements -/
inductive Stmt where
  | expr (e : Exp)
  | bind (x : Str) (id : Nat)
  | imp (module : Str) (alias : Option Str) (id : Nat)
  | del (x : Str) (id : Nat)
  | glob (xs : List Str)
  | nonloc (xs : List Str)
  | block (ss : Stmts)
  /-- `annotations` are those of the usual arguments, `defaults` also has the annotations of all other arguments -/
  | def_ (name : Str) (id : Nat) (scope : Nat) (annotations : Exps) (params : List Occ) (defaults : Exps) (body : Stmts)
  | class_ (name : Str) (id : Nat) (scope : Nat) (body : Stmts)

/-- Several statements -/
inductive Stmts where
  | nil
  | cons (s : Stmt) (rest : Stmts)
end

/-! ### The listener -/

/-- An element of `stack`: the scope of each name. `init_name_node` is left out. -/
abbrev Dict := List (Str × Nat)

/-- `stack`, the top comes first -/
abbrev Stack := List Dict

/-- `_get_var_node_scope`, `edulint/linting/analyses/variable_scope.py:123-133` -/
def find : Stack → Str → Option Nat
  | [], _ => none
  | d :: st, x =>
    match d.lookup x with
    | some s => some s
    | none => find st x

/-- An event: an occurrence of a name, and the variable: its name and its scope -/
abbrev Event := Nat × Str × Nat

/-- `_add_var_event`, `edulint/linting/analyses/variable_scope.py:80-100` -/
def event (st : Stack) (x : Str) (id : Nat) : List Event :=
  match find st x with
  | none => []
  | some s => [(id, x, s)]

/-- Names that get their first value, in the scope with the given number -/
def here (s : Nat) (ps : List Occ) : Dict := ps.map (fun p => (p.1, s))

/-- Their events -/
def hereEvents (s : Nat) (ps : List Occ) : List Event := ps.map (fun p => (p.2, p.1, s))

mutual
/-- Visiting an expression -/
def Exp.collect : Exp → Stack → List Event
  -- `visit_name`, lines 336-337
  | .name x id, st => event st x id
  | .many es, st => es.collect st
  | .skipped _, _ => []
  -- `visit_lambda`, lines 222-227
  | .lam s ps b, st => hereEvents s ps ++ b.collect (here s ps :: st)
  -- `_visit_generator`, lines 229-236
  | .comp s gens ws es, st =>
    gens.collect s [] st ++ hereEvents s ws ++ es.collect ((here s ws ++ gens.all s []) :: st)

/-- Visiting expressions -/
def Exps.collect : Exps → Stack → List Event
  | .nil, _ => []
  | .cons e rest, st => e.collect st ++ rest.collect st

/-- Visiting `generators`; `d` has the names so far. The children of a generator are its target, what is iterated over and the
conditions, in this order. -/
def Gens.collect : Gens → Nat → Dict → Stack → List Event
  | .nil, _, _, _ => []
  | .cons ts it ifs rest, s, d, st =>
    hereEvents s ts ++ it.collect ((here s ts ++ d) :: st) ++ ifs.collect ((here s ts ++ d) :: st) ++ rest.collect s (here s ts ++ d) st

/-- The names after visiting `generators` -/
def Gens.all : Gens → Nat → Dict → Dict
  | .nil, _, d => d
  | .cons ts _ _ rest, s, d => rest.all s (here s ts ++ d)
end

/-- The scope that a name is given in the dictionary on top, `edulint/linting/analyses/variable_scope.py:135-149` -/
def given (own : Nat) (st : Stack) (x : Str) : Nat :=
  match st with
  | [] => own
  | d :: _ => (d.lookup x).getD own

/-- The stack with a name in the dictionary on top -/
def put (st : Stack) (x : Str) (s : Nat) : Stack :=
  match st with
  | [] => []
  | d :: rest => ((x, s) :: d) :: rest

/-- Several names with the same scope -/
def puts (st : Stack) (xs : List Str) (s : Nat) : Stack :=
  match st with
  | [] => []
  | d :: rest => (xs.map (fun x => (x, s)) ++ d) :: rest

/-- `self.stack[scope_index].pop(name)`, `edulint/linting/analyses/variable_scope.py:156-162` -/
def drop : Stack → Str → Stack
  | [], _ => []
  | d :: st, x =>
    match d.lookup x with
    | some _ => d.filter (fun p => p.1 != x) :: st
    | none => d :: drop st x

/-- `_init_var_in_scope`, `edulint/linting/analyses/variable_scope.py:135-154` -/
def assign (own : Nat) (st : Stack) (x : Str) (id : Nat) : List Event × Stack :=
  ([(id, x, given own st x)], put st x (given own st x))

/-- `name = module if alias is None else alias`, `edulint/linting/analyses/variable_scope.py:316-320` -/
def importName (module : Str) (alias : Option Str) : Str := alias.getD module

/-- The name of a function or class, whose body `statements_before_definitions` puts off,
`edulint/linting/analyses/variable_scope.py:169-173` -/
def Stmt.defined : Stmt → Option Occ
  | .def_ x id .. => some (x, id)
  | .class_ x id .. => some (x, id)
  | _ => none

mutual
/-- Visiting a statement; `own` is the scope it is in, `parent` the one around that. -/
def Stmt.collect : Stmt → Nat → Nat → Stack → List Event × Stack
  | .expr e, _, _, st => (e.collect st, st)
  -- `_visit_assigned_to`, lines 266-269
  | .bind x id, own, _, st => assign own st x id
  -- `visit_import`, lines 316-320
  | .imp m a id, own, _, st => assign own st (importName m a) id
  -- `visit_delname`, lines 312-314 and 156-162
  | .del x id, _, _, st => (event st x id, drop st x)
  -- `visit_global`, lines 254-258
  | .glob xs, _, _, st => ([], puts st xs 0)
  -- `visit_nonlocal`, lines 260-264
  | .nonloc xs, _, parent, st => ([], puts st xs parent)
  | .block ss, own, parent, st => ss.collect own parent st
  -- `visit_functiondef`, lines 180-213; after that, the dictionary on top is removed
  | .def_ _ _ s ann ps ds b, own, _, st =>
    let r1 := b.before s own (here s ps :: st)
    let r2 := b.later s own r1.2
    (ann.collect ([] :: st) ++ hereEvents s ps ++ ds.collect (here s ps :: st) ++ r1.1 ++ r2.1, r2.2.tail)
  -- `visit_classdef`, lines 218-220
  | .class_ _ _ s b, own, _, st =>
    let r1 := b.before s own ([] :: st)
    let r2 := b.later s own r1.2
    (r1.1 ++ r2.1, r2.2.tail)

/-- Visiting statements -/
def Stmts.collect : Stmts → Nat → Nat → Stack → List Event × Stack
  | .nil, _, _, st => ([], st)
  | .cons s rest, own, parent, st =>
    let r1 := s.collect own parent st
    let r2 := rest.collect own parent r1.2
    (r1.1 ++ r2.1, r2.2)

/-- `statements_before_definitions`, `edulint/linting/analyses/variable_scope.py:164-174` -/
def Stmts.before : Stmts → Nat → Nat → Stack → List Event × Stack
  | .nil, _, _, st => ([], st)
  | .cons s rest, own, parent, st =>
    let r1 := match s.defined with
      | some (x, id) => assign own st x id
      | none => s.collect own parent st
    let r2 := rest.before own parent r1.2
    (r1.1 ++ r2.1, r2.2)

/-- Visiting what was put off -/
def Stmts.later : Stmts → Nat → Nat → Stack → List Event × Stack
  | .nil, _, _, st => ([], st)
  | .cons s rest, own, parent, st =>
    let r1 := if s.defined.isSome then s.collect own parent st else ([], st)
    let r2 := rest.later own parent r1.2
    (r1.1 ++ r2.1, r2.2)
end

/-- `VarEventsAnalysis.collect` of a module, `edulint/linting/analyses/variable_scope.py:19-29, 176-178` -/
def collect (p : Stmts) : List Event :=
  let r1 := p.before 0 0 [[]]
  r1.1 ++ (p.later 0 0 r1.2).1

end Verif.Scope
