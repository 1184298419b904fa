import Verif.Model.Expr

/-!
Types guessed for expressions, `edulint/linting/analyses/types.py`.
-/

namespace Verif.Py

/-- `Type`, `edulint/linting/analyses/types.py:13-22`. -/
inductive Ty where
  | int | float | bool | string | list | tuple | dict | set | module
  deriving DecidableEq

/-- `Type` as it is iterated over. -/
def Ty.all : List Ty := [.int, .float, .bool, .string, .list, .tuple, .dict, .set, .module]

/-- `int(type)`, `edulint/linting/analyses/types.py:31-32`; `auto()` counts from 1. -/
def Ty.value : Ty → Nat
  | .int => 1
  | .float => 2
  | .bool => 3
  | .string => 4
  | .list => 5
  | .tuple => 6
  | .dict => 7
  | .set => 8
  | .module => 9

/-- `Types`, `edulint/linting/analyses/types.py:43-96`. -/
structure Types where
  types : Nat
  deriving DecidableEq

/-- `Types(t)`, `edulint/linting/analyses/types.py:50-51`. -/
def Types.of (t : Ty) : Types := ⟨1 <<< t.value⟩

/-- `Types.empty()` -/
def Types.empty : Types := ⟨0⟩

/-- `__and__`, `edulint/linting/analyses/types.py:63-64` -/
instance : AndOp Types := ⟨fun a b => ⟨a.types &&& b.types⟩⟩

/-- `__or__`, `edulint/linting/analyses/types.py:66-67` -/
instance : OrOp Types := ⟨fun a b => ⟨a.types ||| b.types⟩⟩

/-- `int.bit_count`, or the number of `1` in `bin(n)`. -/
def bitCount (n : Nat) : Nat := (List.range n).countP fun i => n.testBit i

/-- `__len__`, `edulint/linting/analyses/types.py:69-72` -/
def Types.len (s : Types) : Nat := bitCount s.types

/-- `has`, `edulint/linting/analyses/types.py:74-75` -/
def Types.has (s : Types) (t : Ty) : Bool := decide ((1 <<< t.value) &&& s.types > 0)

/-- `get`, `edulint/linting/analyses/types.py:82-87` -/
def Types.get (s : Types) : List Ty := Ty.all.filter s.has

/-- `has_only`, `edulint/linting/analyses/types.py:77-80` -/
def Types.hasOnly (s : Types) (ts : List Ty) : Bool := s.get.all fun t => decide (t ∈ ts)

/-- `any_mutable`, `edulint/linting/analyses/types.py:89-90` -/
def Types.anyMutable (s : Types) : Bool := [Ty.list, .set, .dict].any s.has

/-- `any_container`, `edulint/linting/analyses/types.py:92-93` -/
def Types.anyContainer (s : Types) : Bool := [Ty.string, .list, .tuple, .set, .dict].any s.has

/-- `BUILTIN_TYPES`, `edulint/linting/analyses/types.py:99-128` -/
def builtinTypes : List (Str × Types) := [
  ("abs".toList, .of .int), ("all".toList, .of .bool), ("any".toList, .of .bool), ("ascii".toList, .of .string),
  ("bin".toList, .of .string), ("bool".toList, .of .bool), ("callable".toList, .of .bool),
  ("chr".toList, .of .string), ("dict".toList, .of .dict), ("divmod".toList, .of .tuple),
  ("float".toList, .of .float), ("hex".toList, .of .string), ("input".toList, .of .string), ("int".toList, .of .int),
  ("isinstance".toList, .of .bool), ("issubclass".toList, .of .bool), ("len".toList, .of .int),
  ("list".toList, .of .list), ("oct".toList, .of .string), ("ord".toList, .of .int),
  ("pow".toList, .of .int ||| .of .float), ("repr".toList, .of .string), ("round".toList, .of .int),
  ("set".toList, .of .set), ("sorted".toList, .of .list), ("str".toList, .of .string),
  ("sum".toList, .of .int ||| .of .float), ("tuple".toList, .of .tuple)]

/-- `TYPE_METHOD_TYPES`, `edulint/linting/analyses/types.py:130-213`, as it can be looked up by a type: the other keys are
written `Types.LIST` instead of `Type.LIST`, which is a function (`edulint/linting/analyses/types.py:38-40`). -/
def methodTypes : List (Str × Types) := [
  ("capitalize".toList, .of .string), ("casefold".toList, .of .string), ("center".toList, .of .string),
  ("count".toList, .of .int), ("endswith".toList, .of .bool), ("expandtabs".toList, .of .string),
  ("find".toList, .of .int), ("format".toList, .of .string), ("format_map".toList, .of .string),
  ("index".toList, .of .int), ("isalnum".toList, .of .bool), ("isalpha".toList, .of .bool),
  ("isascii".toList, .of .bool), ("isdecimal".toList, .of .bool), ("isdigit".toList, .of .bool),
  ("isidentifier".toList, .of .bool), ("islower".toList, .of .bool), ("isnumeric".toList, .of .bool),
  ("isprintable".toList, .of .bool), ("isspace".toList, .of .bool), ("istitle".toList, .of .bool),
  ("isupper".toList, .of .bool), ("join".toList, .of .string), ("ljust".toList, .of .string),
  ("lower".toList, .of .string), ("lstrip".toList, .of .string), ("partition".toList, .of .list),
  ("replace".toList, .of .string), ("rfind".toList, .of .int), ("rindex".toList, .of .int),
  ("rjust".toList, .of .string), ("rpartition".toList, .of .list), ("rsplit".toList, .of .list),
  ("rstrip".toList, .of .string), ("split".toList, .of .list), ("splitline".toList, .of .list),
  ("startswith".toList, .of .bool), ("strip".toList, .of .string), ("swapcase".toList, .of .string),
  ("title".toList, .of .string), ("upper".toList, .of .string), ("zfill".toList, .of .string)]

/-- `MODULE_METHOD_TYPES`, `edulint/linting/analyses/types.py:215-224` -/
def moduleTypes (modname : Str) : List (Str × Types) :=
  if modname = "math".toList then [("trunc".toList, .of .int), ("sqrt".toList, .of .float), ("cos".toList, .of .float),
    ("sin".toList, .of .float), ("radians".toList, .of .float), ("degrees".toList, .of .float)]
  else []

def typesAt (table : List (Str × Types)) (name : Str) : Types := (table.lookup name).getD .empty

/-- What is known of names: the types of the expressions assigned to a variable (`visit_name`,
`edulint/linting/analyses/types.py:250-263`; for a module imported, `module`), which depend on the expressions visited
before and add to them, whether a name is none of a variable, and the module a function is imported from if that is its
only definition. -/
structure Names (σ : Type) where
  types : σ → Str → Types × σ
  isBuiltin : Str → Bool
  module : Str → Option Str

/-- `visit_const`, `edulint/linting/analyses/types.py:238-248` -/
def litTypes : Lit → Types
  | .bool _ => .of .bool
  | .float _ => .of .float
  | .int _ => .of .int
  | .str _ => .of .string
  | _ => .empty

/-- The visitors of displays, `edulint/linting/analyses/types.py:271-290`, and of lambdas and stars,
`edulint/linting/analyses/types.py:298-302`; other nodes are visited by `generic_visit`. -/
def displayTypes (tag : Str) : Option Types :=
  if tag = "Tuple".toList then some (.of .tuple)
  else if tag = "List".toList ∨ tag = "ListComp".toList then some (.of .list)
  else if tag = "Dict".toList ∨ tag = "DictComp".toList then some (.of .dict)
  else if tag = "Set".toList ∨ tag = "SetComp".toList then some (.of .set)
  else if tag = "Lambda".toList ∨ tag = "Starred".toList then some .empty
  else none

/-- `visit_binop` for `+`, `-`, `&`, `|` and `^`, given the types of the operands,
`edulint/linting/analyses/types.py:313-368` -/
def binTypes (op : BinOp) (l r : Types) : Types :=
  match op with
  | .add => l ||| r
  | .sub =>
    if (l ||| r).has .set then .of .set else if (l ||| r).has .float then .of .float
    else if (l ||| r).has .int then .of .int else .empty
  | _ =>
    if (l ||| r).has .set then .of .set else if (l &&& r).has .bool then .of .bool
    else if (l ||| r).has .int then .of .int else .empty

/-- `visit_binop` for `%`, with `first` a string, and `**`, with `first` a float,
`edulint/linting/analyses/types.py:337-349`: for the second test the operands are visited again. -/
def modPow {σ : Type} (first : Ty) (l r : σ → Types × σ) (s : σ) : Types × σ :=
  if ((l s).1 ||| (r (l s).2).1).has first then (.of first, (r (l s).2).2)
  else if ((l (r (l s).2).2).1 ||| (r (l (r (l s).2).2).2).1).has .int then (.of .int, (r (l (r (l s).2).2).2).2)
  else (.empty, (r (l (r (l s).2).2).2).2)

/-- The types of a method called on an expression of the given types, `edulint/linting/analyses/types.py:398-407`. -/
def methodCall (exprText : Str) (exprTypes : Types) (name : Str) : Types :=
  if exprTypes.len ≠ 1 then .empty
  else
    match exprTypes.get with
    | .module :: _ => typesAt (moduleTypes exprText) name
    | .string :: _ => typesAt methodTypes name
    | _ => .empty

section
variable {σ : Type} (N : Names σ) (text : Expr → Str)

mutual
/-- `TypeVisitor.visit`, `edulint/linting/analyses/types.py:227-409`, with `visit_binop`
(`edulint/linting/analyses/types.py:313-368`) and `visit_unaryop` (`edulint/linting/analyses/types.py:370-380`); `text` is
`as_string`. -/
def typesOf : Expr → σ → Types × σ
  | .const v, s => (litTypes v, s)
  | .name x, s => N.types s x
  | .unary op e, s =>
    match op with
    | .pos | .neg => typesOf e s
    | .not => (.of .bool, s)
    | .invert => (.of .int, s)
  | .bin op l r, s =>
    match op with
    | .add | .sub | .bitand | .bitor | .bitxor =>
      (binTypes op (typesOf l s).1 (typesOf r (typesOf l s).2).1, (typesOf r (typesOf l s).2).2)
    | .mul => typesOf l s
    | .mod => modPow .string (typesOf l) (typesOf r) s
    | .pow => modPow .float (typesOf l) (typesOf r) s
    | .div => (.of .float, s)
    | .floordiv | .lshift | .rshift => (.of .int, s)
    | .matmul => (.empty, s)
  | .boolOp _ _, s => (.of .bool, s)
  | .compare _ _, s => (.of .bool, s)
  | .ifExp _ a b, s => ((typesOf a s).1 ||| (typesOf b (typesOf a s).2).1, (typesOf b (typesOf a s).2).2)
  | .subscript _ _, s => (.empty, s)
  | .attr _ _, s => (.empty, s)
  | .call f _, s =>
    match f with
    | .name x =>
      if N.isBuiltin x then (typesAt builtinTypes x, s)
      else
        match N.module x with
        | some m => (typesAt (moduleTypes m) x, s)
        | none => (.empty, s)
    | .attr e a => (methodCall (text e) (typesOf e s).1 a, (typesOf e s).2)
    | _ => (.empty, s)
  | .other tag es, s =>
    match displayTypes tag with
    | some t => (t, s)
    | none => typesOfAll es s

/-- `generic_visit` and `combine`, `edulint/linting/analyses/utils.py:114-115` and
`edulint/linting/analyses/types.py:230-233`. -/
def typesOfAll : List Expr → σ → Types × σ
  | [], s => (.empty, s)
  | e :: es, s => ((typesOf e s).1 ||| (typesOfAll es (typesOf e s).2).1, (typesOfAll es (typesOf e s).2).2)
end

/-- `guess_type`, `edulint/linting/analyses/types.py:412-415`, from the state in which nothing but the expression has been
visited. -/
def guessType (s : σ) (e : Expr) : Option Types :=
  if (typesOf N text e s).1.len > 0 then some (typesOf N text e s).1 else none

end

end Verif.Py
