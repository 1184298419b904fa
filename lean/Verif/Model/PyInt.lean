import Verif.Model.ConstValue

/-!
Python's integers, strings and ranges, as far as the checkers' suggestions are about them.

Everything that is not about these values is left to an arbitrary `rest`, so that what is proved holds
whatever the other operations of Python do.
-/

namespace Verif.Py

/-- Values. Functions such as `ord` are `builtin`; anything else is an `obj`. -/
inductive Val where
  | none
  | bool (b : Bool)
  | int (i : Int)
  | str (s : Str)
  | range (start stop step : Int)
  | builtin (name : Str)
  | obj (n : Nat)
  deriving DecidableEq, Repr

/-- `bool` is a subclass of `int`. -/
def Val.asInt : Val → Option Int
  | .bool b => some (if b then 1 else 0)
  | .int i => some i
  | _ => Option.none

/-- The number of elements of `range(start, stop, step)` for a `step` other than zero. -/
def rangeLen (start stop step : Int) : Nat :=
  if 0 < step then ((stop - start + (step - 1)) / step).toNat
  else ((start - stop + (-step - 1)) / (-step)).toNat

/-- `list(range(start, stop, step))`. -/
def pyRange (start stop step : Int) : List Int :=
  (List.range (rangeLen start stop step)).map fun i : Nat => start + step * (i : Int)

/-- `+`, `-`, `*`, `//` and `%` on integers; other operators are not modelled. -/
def intBin (op : BinOp) (a b : Int) : Option (Except PyErr Val) :=
  match op with
  | .add => some (.ok (.int (a + b)))
  | .sub => some (.ok (.int (a - b)))
  | .mul => some (.ok (.int (a * b)))
  | .floordiv => some (if b = 0 then .error .zeroDivisionError else .ok (.int (a.fdiv b)))
  | .mod => some (if b = 0 then .error .zeroDivisionError else .ok (.int (a.fmod b)))
  | .pow => if b < 0 ∧ a = 0 then some (.error .zeroDivisionError)
    else if 0 ≤ b then some (.ok (.int (a ^ b.toNat))) else Option.none
  | _ => Option.none

/-- Comparisons of integers. -/
def intCmp (op : CmpOp) (a b : Int) : Option Bool :=
  match op with
  | .lt => some (decide (a < b))
  | .le => some (decide (a ≤ b))
  | .eq => some (decide (a = b))
  | .ne => some (decide (a ≠ b))
  | .ge => some (decide (b ≤ a))
  | .gt => some (decide (b < a))
  | _ => Option.none

/-- Strings are compared lexicographically by the numbers of their characters. -/
def strLt : Str → Str → Bool
  | [], [] => false
  | [], _ :: _ => true
  | _ :: _, [] => false
  | c :: s, d :: t => decide (c.toNat < d.toNat) || (decide (c = d) && strLt s t)

/-- Comparisons of strings. -/
def strCmp (op : CmpOp) (s t : Str) : Option Bool :=
  match op with
  | .lt => some (strLt s t)
  | .le => some (strLt s t || decide (s = t))
  | .eq => some (decide (s = t))
  | .ne => some (decide (s ≠ t))
  | .ge => some (strLt t s || decide (s = t))
  | .gt => some (strLt t s)
  | _ => Option.none

/-- Functions of integers and characters that suggestions use. -/
def builtinCall (f : Str) (args : List Val) : Option (Except PyErr Val) :=
  if f = "ord".toList then
    match args with
    | [.str [c]] => some (.ok (.int c.toNat))
    | _ => Option.none
  else if f = "range".toList then
    match args with
    | [a] =>
      match a.asInt with
      | some stop => some (.ok (.range 0 stop 1))
      | Option.none => Option.none
    | [a, b] =>
      match a.asInt, b.asInt with
      | some start, some stop => some (.ok (.range start stop 1))
      | _, _ => Option.none
    | [a, b, c] =>
      match a.asInt, b.asInt, c.asInt with
      | some start, some stop, some step =>
        some (if step = 0 then .error .valueError else .ok (.range start stop step))
      | _, _, _ => Option.none
    | _ => Option.none
  else if f = "abs".toList then
    match args with
    | [a] =>
      match a.asInt with
      | some i => some (.ok (.int i.natAbs))
      | Option.none => Option.none
    | _ => Option.none
  else Option.none

/-- Python's meaning of integers, one-character strings and ranges over an arbitrary rest. -/
def intSem (R : FoldSem Val) : FoldSem Val where
  lit
    | .none => .none
    | .bool b => .bool b
    | .int n => .int n
    | .str s => .str s
    | .float t => R.lit (.float t)
    | .other t => R.lit (.other t)
  ofBool := .bool
  truth
    | .none => .ok false
    | .bool b => .ok b
    | .int i => .ok (decide (i ≠ 0))
    | .str s => .ok (decide (s ≠ []))
    | .range start stop step => .ok (decide (pyRange start stop step ≠ []))
    | .builtin _ => .ok true
    | .obj n => R.truth (.obj n)
  unary op v :=
    match op, v.asInt with
    | .neg, some i => .ok (.int (-i))
    | .pos, some i => .ok (.int i)
    | .invert, some i => .ok (.int (-i - 1))
    | op, _ => R.unary op v
  binary op v w :=
    match v.asInt, w.asInt with
    | some a, some b =>
      match intBin op a b with
      | some r => r
      | Option.none => R.binary op v w
    | _, _ => R.binary op v w
  cmp op v w :=
    match v.asInt, w.asInt with
    | some a, some b =>
      match intCmp op a b with
      | some r => .ok (.bool r)
      | Option.none => R.cmp op v w
    | some a, Option.none =>
      match op, w with
      | .isIn, .range start stop step => .ok (.bool ((pyRange start stop step).contains a))
      | .notIn, .range start stop step => .ok (.bool (!(pyRange start stop step).contains a))
      | _, _ => R.cmp op v w
    | _, _ =>
      match v, w with
      | .str s, .str t =>
        match strCmp op s t with
        | some r => .ok (.bool r)
        | Option.none => R.cmp op v w
      | _, _ => R.cmp op v w
  call g args :=
    match g with
    | .builtin f =>
      match builtinCall f args with
      | some r => r
      | Option.none => R.call g args
    | _ => R.call g args
  attr := R.attr
  item := R.item
  other := R.other
  isNumber
    | .bool _ => true
    | .int _ => true
    | .obj n => R.isNumber (.obj n)
    | _ => false
  isZero v :=
    match v.asInt with
    | some i => .ok (decide (i = 0))
    | Option.none => R.isZero v

/-- The builtin functions are not rebound. -/
def Builtins (env : Env Val) : Prop :=
  ∀ f, f ∈ ["ord".toList, "range".toList, "abs".toList] → env f = .ok (.builtin f)

end Verif.Py
