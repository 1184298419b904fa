import Verif.Model.Repetition
import Verif.Model.LoopMerge

/-!
Loops instead of repetitions: `similar_to_loop` with `get_fixed_by_loop`, `edulint/linting/checkers/duplication/duplicate_sequence.py:237-331` and `387-471`, and
`is_similar_to_loop`, `edulint/linting/checkers/duplication/checker.py:139-148`.

The repetitions differ in constants and in names; places with expressions of different types and with strings that all have one character are those of
`Verif.Model.IterUse`. What the repetitions have in common is given as statements with names for the places where they differ (holes). The numbers of tokens and of statements
are given, and so is the loop around the repetitions that they can be merged with, see `Verif.Model.LoopMerge`. `as_string` of different constants and names is different.
-/

namespace Verif.RepeatLoop

open Verif.ForEach (E S)

/-- The value of a constant that is neither a complex number nor bytes nor an ellipsis. -/
inductive Cst where
  | none_
  | bool (b : Bool)
  | int (n : Int)
  | str (s : Str)
  | float (text : Str)
  deriving DecidableEq

/-- The number if the constant is an `int`, as `True` and `False` are. -/
def Cst.asInt : Cst → Option Int
  | .int n => some n
  | .bool b => some (if b then 1 else 0)
  | _ => none

/-- `isinstance(c, type(d))` -/
def Cst.isOf : Cst → Cst → Bool
  | .none_, .none_ => true
  | .bool _, .bool _ => true
  | .bool _, .int _ => true
  | .int _, .int _ => true
  | .str _, .str _ => true
  | .float _, .float _ => true
  | _, _ => false

/-- `c == d` for constants of which one is an instance of the type of the other. -/
def Cst.equals (c d : Cst) : Bool :=
  match c.asInt, d.asInt with
  | some m, some n => m = n
  | _, _ => c = d

/-- What the repetitions have at a place where they differ. -/
inductive Place where
  | consts (vs : List Cst)
  | names (xs : List Str)
  deriving DecidableEq

def Place.length : Place → Nat
  | .consts vs => vs.length
  | .names xs => xs.length

/-- An element of the suggested list. -/
inductive Elt where
  | const (c : Cst)
  | name (x : Str)
  deriving DecidableEq

/-- The elements at a place. -/
def Place.elts : Place → List Elt
  | .consts vs => vs.map .const
  | .names xs => xs.map .name

/-- There is just one part in `partition_by_type`, `edulint/linting/checkers/duplication/duplicate_sequence.py:76-90`. -/
def oneType : List Cst → Bool
  | c :: d :: cs => d.isOf c && oneType (d :: cs)
  | _ => true

/-- `len(sequence) == len(set(sequence))` -/
def allDifferent : List Cst → Bool
  | [] => true
  | c :: cs => cs.all (fun d => !c.equals d) && allDifferent cs

/-- What is iterated over for one place. -/
inductive Iter where
  | range (start stop step : Int)
  | list (es : List Elt)
  deriving DecidableEq

/-- `to_iter_use`, `edulint/linting/checkers/duplication/duplicate_sequence.py:237-268`. Names are strings, so there is no range for them; if there are several parts, none of
them is of operations, and so there is nothing. -/
def iterOf : Place → Except PyErr (Option Iter)
  | .names xs => .ok (if xs.Nodup then some (.list (xs.map .name)) else none)
  | .consts vs =>
    match Py.toRangeArgs (vs.map Cst.asInt) with
    | .error x => .error x
    | .ok (some (a, b, s)) => .ok (some (.range a b s))
    | .ok none => .ok (if oneType vs && allDifferent vs then some (.list (vs.map .const)) else none)

/-- The loop of `edulint/linting/checkers/duplication/duplicate_sequence.py:298-304`: `none` if there is nothing for some place. -/
def itersOf : List Place → Except PyErr (Option (List Iter))
  | [] => .ok (some [])
  | p :: ps =>
    match iterOf p with
    | .error x => .error x
    | .ok none => .ok none
    | .ok (some i) =>
      match itersOf ps with
      | .error x => .error x
      | .ok none => .ok none
      | .ok (some is) => .ok (some (i :: is))

def Iter.range? : Iter → Option (Int × Int × Int)
  | .range a b s => some (a, b, s)
  | .list _ => none

/-- What is suggested: the iterable, and for each place the step and the start that the variable is multiplied by and added to. -/
inductive Suggestion where
  | nothing
  /-- `NoSubseqToLoop` is raised -/
  | noSubsequence
  | range (start stop step : Int) (uses : List (Int × Int))
  | list (es : List Elt)
  deriving DecidableEq

/-- `consolidate_ranges`, `edulint/linting/checkers/duplication/duplicate_sequence.py:271-285` -/
def consolidate : List (Int × Int × Int) → Except PyErr Suggestion
  | [(a, b, s)] => .ok (.range a b s [(1, 0)])
  | ranges =>
    match ranges.getLast? with
    | none => .error .assertionError
    | some (a, b, s) =>
      if s = 0 then .error .zeroDivisionError else .ok (.range 0 ((b - a - 1).fdiv s + 1) 1 (ranges.map fun r => (r.2.2, r.1)))

/-- `get_nice_iters`, `edulint/linting/checkers/duplication/duplicate_sequence.py:288-331` -/
def niceIters (places : List Place) (count : Nat) : Except PyErr Suggestion :=
  if places = [] then .ok (.range 0 count 1 [])
  else
    match itersOf places with
    | .error x => .error x
    | .ok none => .ok .nothing
    | .ok (some is) =>
      if (is.filterMap Iter.range?).length ≠ 0 ∧ (is.filterMap Iter.range?).length ≠ is.length then .ok .nothing
      else if (is.filterMap Iter.range?).length = 0 then
        match is with
        | .list es :: rest => if rest.all (· = .list es) then .ok (.list es) else .ok .nothing
        | _ => .ok .nothing
      else if (is.filterMap Iter.range?).eraseDups.length > 2 then .ok .noSubsequence
      else consolidate (is.filterMap Iter.range?)

/-- A message: the number of repetitions, the number of statements of the first one and what to iterate over, or what is told about the loop around. -/
inductive Msg (M : Type) where
  | merge (m : M)
  | range (count stmts : Nat) (start stop step : Int)
  | collection (count stmts : Nat) (es : List Elt)
  deriving DecidableEq

/-! ### Places in statements -/

/-- A hole is called: `called_aunify_var`, `edulint/linting/checkers/duplication/utils.py:36-53`. -/
def calledE (holes : List Str) : E → Bool
  | .name _ | .const _ => false
  | .call (.name f) b => holes.contains f || calledE holes b
  | .attr _ a => calledE holes a
  | .call a b | .sub a b | .method _ a b | .op _ a b | .both _ a b => calledE holes a || calledE holes b
  | .ite c a b => calledE holes c || calledE holes a || calledE holes b

def calledS (holes : List Str) : S → Bool
  | .skip | .brk | .cont => false
  | .expr e | .ret e | .assign _ e | .augName _ _ e => calledE holes e
  | .assignItem a b e | .augItem _ a b e => calledE holes a || calledE holes b || calledE holes e
  | .assignAttr _ a e => calledE holes a || calledE holes e
  | .del a b => calledE holes a || calledE holes b
  | .seq s t => calledS holes s || calledS holes t
  | .if_ c s t => calledE holes c || calledS holes s || calledS holes t
  | .while_ c s => calledE holes c || calledS holes s
  | .for_ _ e s => calledE holes e || calledS holes s

/-- The variables that are assigned to. -/
def targets : S → List Str
  | .assign x _ | .augName _ x _ => [x]
  | .seq s t | .if_ _ s t => targets s ++ targets t
  | .while_ _ s => targets s
  | .for_ x _ s => x :: targets s
  | _ => []

/-- The antiunification stops because a place is called or assigned to, `edulint/linting/checkers/duplication/duplicate_sequence.py:432-433` and
`edulint/linting/checkers/duplication/utils.py:56-57`. -/
def stops (core : List S) (holes : List Str) : Bool := core.any fun s => calledS holes s || (targets s).any holes.contains

/-! ### Control -/

/-- Numbers of tokens and of statements: of the repetitions, of the first of them, of a loop with the given iterable, and of what is left if the repetitions are merged with
the loop around. -/
structure Sizes where
  before : Nat × Nat
  first : Nat
  loop : Suggestion → Nat × Nat
  merged : Nat × Nat

/-- `edulint/linting/checkers/duplication/duplicate_sequence.py:397-412`; `none` is no fix. -/
def loopMsg {M : Type} (count first : Nat) : Suggestion → Option (Msg M)
  | .range a b s _ => some (.range count first a b s)
  | .list es => some (.collection count first es)
  | _ => none

/-- `similar_to_loop`, `edulint/linting/checkers/duplication/duplicate_sequence.py:418-471`: what is returned and what is reported. `unified` has the statements in common,
`none` if the antiunification fails for another reason; `count` is the number of repetitions. -/
def similarToLoop {M : Type} (count : Nat) (unified : Option (List S × List (Str × Place))) (merge : Option M) (sizes : Sizes) : Except PyErr (Bool × Option (Msg M)) :=
  match unified with
  | none => .ok (false, none)
  | some (core, holes) =>
    if max count core.length ≤ 2 then .ok (false, none)
    else if stops core (holes.map (·.1)) then .ok (false, none)
    else
      match merge with
      | some m => if LoopMerge.saves sizes.before.1 sizes.before.2 sizes.merged.1 sizes.merged.2 then .ok (true, some (.merge m)) else .ok (false, none)
      | none =>
        match niceIters (holes.map (·.2)) count with
        | .error x => .error x
        | .ok .noSubsequence => .ok (true, none)
        | .ok sug =>
          match loopMsg count sizes.first sug with
          | none => .ok (false, none)
          | some msg =>
            if LoopMerge.saves sizes.before.1 sizes.before.2 (sizes.loop sug).1 (sizes.loop sug).2 then .ok (true, some msg) else .ok (false, none)

/-- The loop of `is_similar_to_loop`, given what `similar_to_loop` does. -/
def firstSimilar {σ M : Type} (candidate : List (List σ) → Bool) (similar : List (List σ) → Except PyErr (Bool × Option M)) :
    List (Nat × List (List σ)) → Except PyErr (Bool × List M)
  | [] => .ok (false, [])
  | (_, parts) :: rest =>
    if candidate parts then
      match similar parts with
      | .error x => .error x
      | .ok (true, m) => .ok (true, m.toList)
      | .ok (false, m) =>
        match firstSimilar candidate similar rest with
        | .error x => .error x
        | .ok (b, ms) => .ok (b, m.toList ++ ms)
    else firstSimilar candidate similar rest

/-- `is_similar_to_loop`, `edulint/linting/checkers/duplication/checker.py:139-148` -/
def isSimilarToLoop {σ M : Type} (candidate : List (List σ) → Bool) (similar : List (List σ) → Except PyErr (Bool × Option M)) (siblings : List σ) :
    Except PyErr (Bool × List M) :=
  if siblings.length < 3 then .ok (false, []) else firstSimilar candidate similar (Py.loopRepetitions siblings)

end Verif.RepeatLoop
