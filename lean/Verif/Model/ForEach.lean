import Verif.Base.Str

/-!
Loops over the indices of a list that could be loops over its elements: `_check_improve_for_loop` of
`edulint/linting/checkers/unsuited_loop.py`, for `for i in range(len(xs)): …` where `xs` is a variable, and the events of these two variables
that `VarEventListener` of `edulint/linting/analyses/variable_scope.py` finds in the body.

Expressions have neither functions and comprehensions in them nor assignments. Calls have one argument; more of them, and operands of operators, are
put together by operators, so an attribute that is one of several arguments has no call as its parent. There are no `with`, `try` and
definitions in the body, `del` is only applied to items, all names are those of local variables, and all targets are single.
-/

namespace Verif.ForEach

/-- Expressions. -/
inductive E where
  | name (x : Str)
  | const (n : Nat)
  | sub (a b : E)
  | attr (m : Str) (a : E)
  /-- a call of what is not an attribute -/
  | call (f b : E)
  /-- `a.m(b)` -/
  | method (m : Str) (a b : E)
  | op (n : Nat) (a b : E)
  /-- `and` or `or` -/
  | both (isOr : Bool) (a b : E)
  | ite (c a b : E)
  deriving DecidableEq

/-- Statements. Blocks are nested to the right: `.seq` does not have `.seq` on its left. -/
inductive S where
  | skip
  | expr (e : E)
  | assign (x : Str) (e : E)
  | assignItem (a b e : E)
  | assignAttr (m : Str) (a e : E)
  | augName (n : Nat) (x : Str) (e : E)
  | augItem (n : Nat) (a b e : E)
  /-- `del a[b]` -/
  | del (a b : E)
  | brk
  | cont
  | ret (e : E)
  | seq (s t : S)
  | if_ (c : E) (s t : S)
  | while_ (c : E) (s : S)
  | for_ (x : Str) (e : E) (s : S)

/-! ### Events -/

/-- `event.type`, without `DELETE`; `ASSIGN` and `REASSIGN` are not told apart. -/
inductive Kind where
  | read | modify | assign
  deriving DecidableEq

/-- What a node is the child of: the container (with the index, and whether the subscript is loaded) or the index of a subscript, an attribute that is
loaded, a call, or anything else. -/
inductive Par where
  | container (index : E) (load : Bool)
  | index (container : E)
  | attr
  | call
  | other
  deriving DecidableEq

/-- An event: its type, the parent of its node and the parent of that, and whether the block that its statement is in ends with `break` or
`return` (`_get_last_block_line`, `edulint/linting/checkers/unsuited_loop.py:338-344`). -/
structure Ev where
  kind : Kind
  parent : Par
  grand : Par
  ends : Bool
  deriving DecidableEq

/-- Is a word part of another? -/
def hasPart (p : Str) : Str → Bool
  | [] => p.isEmpty
  | c :: s => p.isPrefixOf (c :: s) || hasPart p s

/-- Does `NON_PURE_METHODS` match the name, `edulint/linting/analyses/variable_scope.py:47-49, 343`? It need not match all of it. -/
def nonPure (m : Str) : Bool :=
  (["append", "clear", "extend", "insert", "pop", "remove", "reverse", "sort", "add", "write"].any fun p => p.toList.isPrefixOf m) ||
    hasPart "update".toList m

/-- `strip_to_name`, `edulint/linting/analyses/var_events.py:129-140`: the name, with its parent and the parent of that. -/
def strip (p g : Par) : E → Option (Str × Par × Par)
  | .name x => some (x, p, g)
  | .sub a b => strip (.container b true) p a
  | .attr _ a => strip .attr p a
  | _ => none

/-- The event of the given type for what is left after stripping, if this is the variable. -/
def stripped (v : Str) (k : Kind) (ends : Bool) : Option (Str × Par × Par) → List Ev
  | some (x, p, g) => if x = v then [⟨k, p, g, ends⟩] else []
  | none => []

/-- The events of a variable in an expression with the given parents: `visit_name` and `visit_attribute`,
`edulint/linting/analyses/variable_scope.py:336-348`, and the visits of children. -/
def evE (v : Str) (ends : Bool) (p g : Par) : E → List Ev
  | .name x => if x = v then [⟨.read, p, g, ends⟩] else []
  | .const _ => []
  | .sub a b => evE v ends (.container b true) p a ++ evE v ends (.index a) p b
  | .attr m a => (if p = .call ∧ nonPure m = true then stripped v .modify ends (strip .attr p a) else []) ++ evE v ends .attr p a
  | .call f b => evE v ends .call p f ++ evE v ends .call p b
  | .method m a b => (if nonPure m then stripped v .modify ends (strip .attr .call a) else []) ++ evE v ends .attr .call a ++ evE v ends .call p b
  | .op _ a b => evE v ends .other p a ++ evE v ends .other p b
  | .both _ a b => evE v ends .other p a ++ evE v ends .other p b
  | .ite c a b => evE v ends .other p c ++ evE v ends .other p a ++ evE v ends .other p b

/-- The events of the target `a[b]`, `edulint/linting/analyses/variable_scope.py:266-276`. -/
def evItem (v : Str) (ends : Bool) (a b : E) : List Ev :=
  evE v ends (.container b false) .other a ++ evE v ends (.index a) .other b ++
    stripped v .modify ends (strip (.container b false) .other a)

/-- Is the last statement of a block `break` or `return`? -/
def exits : S → Bool
  | .seq _ t => exits t
  | .brk | .ret _ => true
  | _ => false

/-- The events of a variable in statements of a block (`edulint/linting/analyses/variable_scope.py:266-303, 333-334`); `ends` tells whether the last
statement of the block is `break` or `return`. -/
def evS (v : Str) (ends : Bool) : S → List Ev
  | .skip | .brk | .cont => []
  | .expr e | .ret e => evE v ends .other .other e
  | .assign x e => evE v ends .other .other e ++ if x = v then [⟨.assign, .other, .other, ends⟩] else []
  | .assignItem a b e => evE v ends .other .other e ++ evItem v ends a b
  | .assignAttr _ a e =>
    evE v ends .other .other e ++ evE v ends .other .other a ++ stripped v .modify ends (strip .other .other a)
  | .augName _ x e =>
    (if x = v then [⟨.read, .other, .other, ends⟩] else []) ++ evE v ends .other .other e ++
      if x = v then [⟨.assign, .other, .other, ends⟩] else []
  | .augItem _ a b e =>
    stripped v .read ends (strip (.container b false) .other a) ++ evE v ends .other .other e ++ evItem v ends a b
  | .del a b => evE v ends (.container b false) .other a ++ evE v ends (.index a) .other b
  | .seq s t => evS v ends s ++ evS v ends t
  | .if_ c s t => evE v ends .other .other c ++ evS v (exits s) s ++ evS v (exits t) t
  | .while_ c s => evE v ends .other .other c ++ evS v (exits s) s
  | .for_ x e s => (if x = v then [⟨.assign, .other, .other, ends⟩] else []) ++ evE v ends .other .other e ++ evS v (exits s) s

/-- The events of a variable in the body of a loop. -/
def evBody (v : Str) (s : S) : List Ev := evS v (exits s) s

/-! ### The check -/

/-- `is_structure_indexed_just_by`, `edulint/linting/checkers/unsuited_loop.py:415-429` -/
def indexedJustBy (i : Str) (evs : List Ev) : Bool :=
  evs.all fun e => match e.parent with | .container b _ => decide (b = .name i) | _ => true

/-- `is_structure_read`, `edulint/linting/checkers/unsuited_loop.py:415-420, 450-451` -/
def structureRead (evs : List Ev) : Bool := evs.any fun e => match e.parent with | .container _ load => load | _ => false

/-- `isinstance(…, (nodes.Subscript, nodes.Attribute, nodes.Call))` -/
def Par.deep : Par → Bool
  | .other => false
  | _ => true

/-- `is_structure_assigned_into`, `edulint/linting/checkers/unsuited_loop.py:431-438` -/
def assignedInto (evs : List Ev) : Bool := evs.any fun e => decide (e.kind ≠ .read) && !e.grand.deep

/-- `is_structure_directly_modified`, `edulint/linting/checkers/unsuited_loop.py:440-448` -/
def directlyModified (evs : List Ev) : Bool :=
  evs.any fun e => ((e.kind = .modify && e.parent = .attr && e.grand = .call) || e.kind = .assign) && !e.ends

/-- `is_index_modified`, `edulint/linting/checkers/unsuited_loop.py:453-454` -/
def indexModified (evs : List Ev) : Bool := evs.any fun e => decide (e.kind ≠ .read)

/-- `is_index_used_just_for`, `edulint/linting/checkers/unsuited_loop.py:456-465` -/
def indexJustFor (xs : Str) (evs : List Ev) : Bool := evs.all fun e => match e.parent with | .index a => decide (a = .name xs) | _ => true

/-- `is_index_used_outside_subscript`, `edulint/linting/checkers/unsuited_loop.py:467-477` -/
def indexOutside (xs : Str) (evs : List Ev) : Bool :=
  evs.any fun e => match e.parent with | .index a => decide (a ≠ .name xs) | _ => true

/-- What is reported. -/
inductive Report where
  | enumerate | foreach
  deriving DecidableEq

/-- `_check_improve_for_loop`, `edulint/linting/checkers/unsuited_loop.py:479-513`, of `for i in range(len(xs))` with the given body; for a name,
`filter_events_for` gives all events (`edulint/linting/analyses/data_dependency.py:538-539`). -/
def improve (i xs : Str) (body : S) : Option Report :=
  if !structureRead (evBody xs body) || !indexedJustBy i (evBody xs body) || !indexJustFor xs (evBody i body) || indexModified (evBody i body) ||
      directlyModified (evBody xs body) || assignedInto (evBody xs body) then none
  else if indexOutside xs (evBody i body) then some .enumerate
  else some .foreach

end Verif.ForEach
