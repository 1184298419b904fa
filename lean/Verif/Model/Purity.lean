import Verif.Base.Str

/-!
Which expressions are taken for pure: `is_pure_expression`, `edulint/linting/analyses/utils.py:139-229`, for all kinds of expressions.

What `astroid` infers for a function (`safe_infer`) and whether a name is of a variable of the file are parameters. `Verif.Py.BoolOps.isPure` is the same for the
expressions that other models have.
-/

namespace Verif.Purity

/-- Kinds of expressions that make a new object of the values of their parts. For a slice, which of its three parts it has. -/
inductive Display where
  | list | set | dict | tuple
  | slice (lower upper step : Bool)
  deriving DecidableEq

/-- Expressions. Pairs of a dictionary are one after another; the key of `**d` is another expression. `other` is every other kind: conditional expressions,
comprehensions, `lambda`, `yield`, `await`, `:=`, strings with replacement fields, … -/
inductive Ex where
  | const (text : Str)
  | name (x : Str)
  | unary (op : Str) (e : Ex)
  | bin (op : Str) (l r : Ex)
  | boolOp (isOr : Bool) (values : List Ex)
  | compare (left : Ex) (ops : List (Str × Ex))
  | attribute (e : Ex) (a : Str)
  | display (kind : Display) (es : List Ex)
  /-- `load` is `node.ctx == Context.Load` -/
  | subscript (load : Bool) (e i : Ex)
  /-- A keyword without a name is `**kwargs`. -/
  | call (f : Ex) (args : List Ex) (keywords : List (Option Str × Ex))
  | starred (e : Ex)
  | other (kind : Str) (es : List Ex)

/-- `PURE_FUNCTIONS`, `edulint/linting/analyses/utils.py:154-170` -/
def pureFunctions : List Str :=
  ["abs".toList, "max".toList, "min".toList, "round".toList, "sqrt".toList, "len".toList, "sum".toList, "sorted".toList, "reversed".toList, "int".toList,
    "float".toList, "str".toList, "ord".toList, "chr".toList, "isinstance".toList]

/-- `is_builtin`, `edulint/linting/analyses/utils.py:139-144`, without a function. Variables have events at names only,
`edulint/linting/analyses/variable_scope.py:336-337`; `bound` tells if there is one. -/
def isBuiltin (bound : Str → Bool) : Ex → Bool
  | .name x => !bound x
  | _ => true

/-- `is_pure_builtin`, `edulint/linting/analyses/utils.py:175-177`; `infer` is the name of what is inferred. -/
def pureBuiltin (bound : Str → Bool) (infer : Ex → Option Str) (f : Ex) : Bool :=
  isBuiltin bound f && match infer f with
    | none => false
    | some n => n ∈ pureFunctions

/-- `Starred` is the class of arguments in `starargs`. -/
def Ex.isStarred : Ex → Bool
  | .starred _ => true
  | _ => false

mutual
/-- `is_pure_expression`, `edulint/linting/analyses/utils.py:184-229` -/
def isPure (bound : Str → Bool) (infer : Ex → Option Str) : Ex → Bool
  | .const _ | .name _ => true
  | .unary _ e => isPure bound infer e
  | .bin _ l r => isPure bound infer l && isPure bound infer r
  | .boolOp _ es => allPure bound infer es
  | .compare l ops => isPure bound infer l && opsPure bound infer ops
  | .attribute e _ => isPure bound infer e
  | .display _ es => allPure bound infer es
  | .subscript load e i => load && (isPure bound infer e && isPure bound infer i)
  | .call f args keywords => (pureBuiltin bound infer f && keywords.isEmpty && !args.any Ex.isStarred) && allPure bound infer args
  | .starred _ | .other _ _ => false

def allPure (bound : Str → Bool) (infer : Ex → Option Str) : List Ex → Bool
  | [] => true
  | e :: es => isPure bound infer e && allPure bound infer es

def opsPure (bound : Str → Bool) (infer : Ex → Option Str) : List (Str × Ex) → Bool
  | [] => true
  | (_, e) :: es => isPure bound infer e && opsPure bound infer es
end

end Verif.Purity
