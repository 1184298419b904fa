import Verif.Model.Repetition

/-!
Ranges for repetitions that differ in expressions: `edulint/linting/checkers/duplication/duplicate_sequence.py:76-268`.

Expressions are constants that are integers, names, subscripts and operations; attributes, which are treated as subscripts are, are left out, and so are names that differ
and are renamed by the antiunification. What the code puts in place of the expressions (`use`) is not shown to anyone, just the range is; here it is what is meant: the
operation with the variable of the loop where they differ.
-/

namespace Verif.IterUse

inductive Op where
  | add
  | sub
  | mul
  | div
  | floordiv
  | mod
  | other (text : Str)
  deriving DecidableEq

inductive Expr where
  | const (n : Int)
  | name (x : Str)
  | subscript (e i : Expr)
  | bin (op : Op) (l r : Expr)
  deriving DecidableEq

/-- The core of an antiunification: `value` is a constant whose value differs, `hole` an expression that does, `label` a name or operator. -/
inductive Core where
  | const (n : Int)
  | name (x : Str)
  | subscript (e i : Core)
  | bin (op : Op) (l r : Core)
  | value
  | hole
  | label
  deriving DecidableEq

/-- What is put in place of something that differs. -/
inductive Avar where
  | values (ns : List Int)
  | nodes (es : List Expr)
  | labels

def Expr.const? : Expr → Option Int
  | .const n => some n
  | _ => none

def Expr.name? : Expr → Option Str
  | .name x => some x
  | _ => none

def Expr.subscript? : Expr → Option (Expr × Expr)
  | .subscript e i => some (e, i)
  | _ => none

def Expr.bin? : Expr → Option (Op × Expr × Expr)
  | .bin op l r => some (op, l, r)
  | _ => none

/-- `antiunify` of an expression and others, `edulint/linting/analyses/antiunify.py:131-153`; names that are the same are merged,
`edulint/linting/analyses/antiunify.py:384-386`. -/
def aunify : Expr → List Expr → Core × List Avar
  | .const n, es =>
    if (es.filterMap Expr.const?).length ≠ es.length then (.hole, [.nodes (.const n :: es)])
    else if (es.filterMap Expr.const?).all (· = n) then (.const n, [])
    else (.value, [.values (n :: es.filterMap Expr.const?)])
  | .name x, es =>
    if (es.filterMap Expr.name?).length ≠ es.length then (.hole, [.nodes (.name x :: es)])
    else if (es.filterMap Expr.name?).all (· = x) then (.name x, [])
    else (.label, [.labels])
  | .subscript e i, es =>
    if (es.filterMap Expr.subscript?).length ≠ es.length then (.hole, [.nodes (.subscript e i :: es)])
    else
      (.subscript (aunify e ((es.filterMap Expr.subscript?).map (·.1))).1 (aunify i ((es.filterMap Expr.subscript?).map (·.2))).1,
        (aunify e ((es.filterMap Expr.subscript?).map (·.1))).2 ++ (aunify i ((es.filterMap Expr.subscript?).map (·.2))).2)
  | .bin op l r, es =>
    if (es.filterMap Expr.bin?).length ≠ es.length then (.hole, [.nodes (.bin op l r :: es)])
    else
      (.bin op (aunify l ((es.filterMap Expr.bin?).map (·.2.1))).1 (aunify r ((es.filterMap Expr.bin?).map (·.2.2))).1,
        (aunify l ((es.filterMap Expr.bin?).map (·.2.1))).2 ++ (aunify r ((es.filterMap Expr.bin?).map (·.2.2))).2 ++
          if (es.filterMap Expr.bin?).all (·.1 = op) then [] else [.labels])

/-- An expression as a core with nothing that differs. -/
def Expr.core : Expr → Core
  | .const n => .const n
  | .name x => .name x
  | .subscript e i => .subscript e.core i.core
  | .bin op l r => .bin op l.core r.core

/-- The exclusive types, `edulint/linting/checkers/duplication/duplicate_sequence.py:137`. -/
def Expr.isExclusive : Expr → Bool
  | .name _ => true
  | .subscript _ _ => true
  | _ => false

/-- The groups of types in this order, `edulint/linting/checkers/duplication/duplicate_sequence.py:131-169`: at most one constant, at most one name or subscript, at least
one of both, and operations. -/
def groups : List Expr → Option (Option Int × Option Expr × List Expr)
  | .const c :: x :: b :: bs =>
    if x.isExclusive && (b :: bs).all (·.bin?.isSome) then some (some c, some x, b :: bs)
    else if (x :: b :: bs).all (·.bin?.isSome) then some (some c, none, x :: b :: bs)
    else none
  | x :: b :: bs =>
    if x.isExclusive && (b :: bs).all (·.bin?.isSome) then some (none, some x, b :: bs)
    else if x.const?.isSome && (b :: bs).all (·.bin?.isSome) then some (x.const?, none, b :: bs)
    else none
  | _ => none

/-- The check that some operand is the shared value, `edulint/linting/checkers/duplication/duplicate_sequence.py:183-194`. -/
def related (c : Option Int) (x : Option Expr) (l r : Core) : Bool :=
  match x, c with
  | some x, _ => r = x.core || l = x.core
  | none, some c => r = .const c || l = .const c
  | none, none => true

/-- `exclusive_nums`, `edulint/linting/checkers/duplication/duplicate_sequence.py:201-214` -/
def exclusiveNums (x : Option Expr) (op : Op) (l : Core) : List Int :=
  match x with
  | none => []
  | some x =>
    if op = .add || (op = .sub && l = x.core) then [0]
    else if op = .mul || ((op = .div || op = .floordiv || op = .mod) && l = x.core) then [1]
    else []

/-- `const_nums`, `edulint/linting/checkers/duplication/duplicate_sequence.py:196-199` -/
def constNums (c : Option Int) : List Int := if c.isSome then [0] else []

/-- Expressions with the variable of the loop, as cores: the one in place of what differs may be such an expression again. -/
inductive Use where
  | leaf (core : Core)
  | nested (core : Core) (use : Use)
  deriving DecidableEq

/-- The part of `iter_use_from_partition` after the types are looked at, `edulint/linting/checkers/duplication/duplicate_sequence.py:171-226`, given what it does for the
expressions in one place of operations: the numbers for the constant, the expression and the operations. -/
def useOf (rec : List Expr → Option (List Int × Use)) (c : Option Int) (x : Option Expr) : List Expr → Option (List Int × List Int × List Int × Use)
  | [] => none
  | b :: bs =>
    match aunify b bs with
    | (.bin op l r, [.values ns]) => if related c x l r then some (constNums c, exclusiveNums x op l, ns, .leaf (.bin op l r)) else none
    | (.bin op l r, [.nodes es]) =>
      if related c x l r then (rec es).map fun p => (constNums c, exclusiveNums x op l, p.1, .nested (.bin op l r) p.2) else none
    | _ => none

/-- `iter_use_from_partition`, `edulint/linting/checkers/duplication/duplicate_sequence.py:131-234`; the sequence may be in reversed order. Names and operators that differ
are no integers, so there is no range for them. -/
def iterUse : Nat → List Expr → Option (List Int × Use)
  | 0, _ => none
  | fuel + 1, es =>
    match groups es with
    | some (c, x, bs) => (useOf (iterUse fuel) c x bs).map fun p => (p.1 ++ p.2.1 ++ p.2.2.1, p.2.2.2)
    | none =>
      match groups es.reverse with
      | some (c, x, bs) => (useOf (iterUse fuel) c x bs.reverse).map fun p => (p.2.2.1 ++ p.2.1 ++ p.1, p.2.2.2)
      | none => none

/-- `to_iter_use` for expressions of different types that are not all constants, `edulint/linting/checkers/duplication/duplicate_sequence.py:253-268`: the range, and what
is meant to be used in the loop. -/
def toIterUse (fuel : Nat) (es : List Expr) : Option ((Int × Int × Int) × Use) :=
  match iterUse fuel es with
  | none => none
  | some (ns, use) =>
    match Py.toRangeArgs (ns.map some) with
    | .ok (some args) => some (args, use)
    | _ => none

/-- `from_chars`, `edulint/linting/checkers/duplication/duplicate_sequence.py:103-128`: the least character and the offsets from it. -/
def fromChars : List Char → Option (Char × List Nat)
  | [] => none
  | c :: cs => some (cs.foldl (fun m d => if d.toNat < m.toNat then d else m) c,
      (c :: cs).map fun d => d.toNat - (cs.foldl (fun m d => if d.toNat < m.toNat then d else m) c).toNat)

end Verif.IterUse
