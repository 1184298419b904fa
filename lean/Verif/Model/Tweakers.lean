import Verif.Model.Problem
import Verif.Model.Regex

/-!
`edulint/linting/tweakers.py` and `apply_tweaks`.
-/

namespace Verif

/-- The pieces of a match between two positions, i.e. the text of a group. -/
def pieces (ps : List Str) (i n : Nat) : Str := ((ps.drop i).take n).flatten

/-- `s.strip(chars)`. -/
def stripChars (chars : Str) (s : Str) : Str :=
  ((s.dropWhile chars.contains).reverse.dropWhile chars.contains).reverse

/-- `Tweaker`, `edulint/linting/tweakers.py:10-30`. The pattern is a list of atoms. -/
structure Tweaker where
  usedOptions : List Opt
  pattern : List Atom
  keep : Problem → List Arg → Except PyErr Bool
  reword : Problem → Except PyErr Str

/-- `Tweaker.match`, `edulint/linting/tweakers.py:18-21`. -/
def tweakMatch (pattern : List Atom) (p : Problem) : Except PyErr (List Str) :=
  match matchSeq pattern p.text with
  | none => .error .assertionError
  | some ps => .ok ps

/-- `Disallowed name \"(.*)\"`, `edulint/linting/tweakers.py:120`. -/
def disallowedNamePrefix : Str := "Disallowed name \"".toList
@[inherit_doc disallowedNamePrefix]
def disallowedNamePattern : List Atom := lits disallowedNamePrefix ++ [.star dot] ++ lits ['"']

/-- Group 1 of that pattern. -/
def disallowedNameGroup (p : Problem) : Except PyErr Str :=
  match tweakMatch disallowedNamePattern p with
  | .error e => .error e
  | .ok ps => .ok (pieces ps disallowedNamePrefix.length 1)

/-- `disallowed_name_keep`, `edulint/linting/tweakers.py:33-47`. -/
def disallowedNameKeep (p : Problem) (args : List Arg) : Except PyErr Bool :=
  let allowed : Except PyErr Str :=
    match args with
    | [a] =>
      if a.option = .allowedOnecharNames then
        match a.val with
        | .none => .ok []
        | .str s => .ok s
        | _ => .error .assertionError
      else .ok []
    | _ => .ok []
  match allowed with
  | .error e => .error e
  | .ok allowed =>
    match disallowedNameGroup p with
    | .error e => .error e
    | .ok name => .ok (decide (name.length ≠ 1) || !containsStr name allowed)

/-- `disallowed_name_reword`, `edulint/linting/tweakers.py:50-54`. -/
def disallowedNameReword (p : Problem) : Except PyErr Str :=
  match disallowedNameGroup p with
  | .error e => .error e
  | .ok name =>
    if name.length = 1 then
      .ok ("Disallowed single-character variable name \"".toList ++ name ++
        "\", choose a more descriptive name".toList)
    else .ok p.text

/-- `'(.*)' imported but unused`, `edulint/linting/tweakers.py:133`. -/
def unusedImportSuffix : Str := "' imported but unused".toList
@[inherit_doc unusedImportSuffix]
def unusedImportPattern : List Atom := lits ['\''] ++ [.star dot] ++ lits unusedImportSuffix

/-- `unused_import_keep`, `edulint/linting/tweakers.py:77-79`. -/
def unusedImportKeep (p : Problem) (_ : List Arg) : Except PyErr Bool :=
  match tweakMatch unusedImportPattern p with
  | .error e => .error e
  | .ok ps => .ok !(startsWith (pieces ps 1 1) "ib111".toList)

/-- `^Use [^ ]* instead of repeated [^ ]* in ([^\.]*).`, `edulint/linting/tweakers.py:137`; the final dot is not
escaped and stands for any character. -/
def repeatedOpPattern : List Atom :=
  lits "Use ".toList ++ [.star (· ≠ ' ')] ++ lits " instead of repeated ".toList ++ [.star (· ≠ ' ')] ++
    lits " in ".toList ++ [.star (· ≠ '.')] ++ [.one dot]

/-- Position of group 1 among the atoms of that pattern. -/
def repeatedOpGroupAt : Nat := 4 + 1 + " instead of repeated ".toList.length + 1 + 4

/-- `x in val` for an option value. -/
def Val.contains (v : Val) (s : Str) : Except PyErr Bool :=
  match v with
  | .list l => .ok (l.contains s)
  | .str t => .ok (containsStr s t)
  | _ => .error .typeError

/-- `bool(val)`. -/
def Val.truthy : Val → Bool
  | .none => false
  | .bool b => b
  | .str s => s ≠ []
  | .list l => l ≠ []
  | .int n => n ≠ 0

/-- `no_repeated_op_keep`, `edulint/linting/tweakers.py:82-90`. -/
def noRepeatedOpKeep (p : Problem) (args : List Arg) : Except PyErr Bool :=
  match args with
  | [a] =>
    match a.val.contains "enhancement".toList with
    | .error e => .error e
    | .ok true => .ok true
    | .ok false =>
      match tweakMatch repeatedOpPattern p with
      | .error e => .error e
      | .ok ps => .ok (a.val.truthy || decide ((pieces ps repeatedOpGroupAt 1).count '*' > 1))
  | _ => .error .assertionError

/-- `Unnecessary parens after (.*) keyword`, `edulint/linting/tweakers.py:142`. -/
def superfluousParensPrefix : Str := "Unnecessary parens after ".toList
@[inherit_doc superfluousParensPrefix]
def superfluousParensPattern : List Atom :=
  lits superfluousParensPrefix ++ [.star dot] ++ lits " keyword".toList

/-- `superfluous_parens_keep`, `edulint/linting/tweakers.py:93-97`. -/
def superfluousParensKeep (p : Problem) (_ : List Arg) : Except PyErr Bool :=
  match tweakMatch superfluousParensPattern p with
  | .error e => .error e
  | .ok ps =>
    .ok (lower (stripChars ['\'', '"'] (pieces ps superfluousParensPrefix.length 1)) ≠ "not".toList)

/-- `^Redefining built-in (.*)`, `edulint/linting/tweakers.py:147`. -/
def redefinedBuiltinPrefix : Str := "Redefining built-in ".toList
@[inherit_doc redefinedBuiltinPrefix]
def redefinedBuiltinPattern : List Atom := lits redefinedBuiltinPrefix ++ [.star dot]

/-- `redefined_builtin_keep`, `edulint/linting/tweakers.py:100-107`. -/
def redefinedBuiltinKeep (p : Problem) (args : List Arg) : Except PyErr Bool :=
  match tweakMatch redefinedBuiltinPattern p with
  | .error e => .error e
  | .ok ps =>
    let name := stripChars ['\'', '"'] (pieces ps redefinedBuiltinPrefix.length 1)
    match args with
    | [a] =>
      if a.option = .disallowedBuiltinNames then
        if !a.val.truthy then .ok true else a.val.contains name
      else .error .assertionError
    | _ => .error .assertionError

/-- `(comparison to (?:True|False) should be )'if cond is .*' or (.*)`, `edulint/linting/tweakers.py:152`. -/
def boolComparisonPattern : List Atom :=
  lits "comparison to ".toList ++ [.alt ["True".toList, "False".toList]] ++ lits " should be ".toList ++
    lits "'if cond is ".toList ++ [.star dot] ++ lits "' or ".toList ++ [.star dot]

/-- `singleton_bool_comparison_reword`, `edulint/linting/tweakers.py:110-112`: the two groups joined. -/
def boolComparisonReword (p : Problem) : Except PyErr Str :=
  match tweakMatch boolComparisonPattern p with
  | .error e => .error e
  | .ok ps =>
    let n1 := "comparison to ".toList.length + 1 + " should be ".toList.length
    let n2 := "'if cond is ".toList.length + 1 + "' or ".toList.length
    .ok (pieces ps 0 n1 ++ pieces ps (n1 + n2) 1)

/-- The defaults of `Tweaker.keep` and `Tweaker.get_reword`, `edulint/linting/tweakers.py:15,29-30`. -/
def keepAll (_ : Problem) (_ : List Arg) : Except PyErr Bool := .ok true
@[inherit_doc keepAll] def sameText (p : Problem) : Except PyErr Str := .ok p.text

/-- `TWEAKERS`, `edulint/linting/tweakers.py:117-155`. -/
def tweakers : Dict (Linter × Str) Tweaker :=
  [((.pylint, "C0104".toList),
      ⟨[.allowedOnecharNames], disallowedNamePattern, disallowedNameKeep, disallowedNameReword⟩),
   ((.flake8, "F401".toList), ⟨[], unusedImportPattern, unusedImportKeep, sameText⟩),
   ((.pylint, "R6607".toList), ⟨[.setGroups], repeatedOpPattern, noRepeatedOpKeep, sameText⟩),
   ((.pylint, "C0325".toList), ⟨[], superfluousParensPattern, superfluousParensKeep, sameText⟩),
   ((.pylint, "W0622".toList),
      ⟨[.disallowedBuiltinNames], redefinedBuiltinPattern, redefinedBuiltinKeep, sameText⟩),
   ((.flake8, "E712".toList), ⟨[], boolComparisonPattern, keepAll, boolComparisonReword⟩)]

/-- `apply_tweaks`, `edulint/linting/linting.py:238-252`. -/
def applyTweaks (table : Dict (Linter × Str) Tweaker) (config : ImmutableConfig) :
    List Problem → Except PyErr (List Problem)
  | [] => .ok []
  | p :: ps =>
    let head : Except PyErr (List Problem) :=
      match Dict.get? table (p.source, p.code) with
      | none => .ok [p]
      | some t =>
        match t.keep p (config.config.filter fun a => t.usedOptions.contains a.option) with
        | .error e => .error e
        | .ok false => .ok []
        | .ok true =>
          match t.reword p with
          | .error e => .error e
          | .ok text => .ok [{ p with text := text }]
    match head with
    | .error e => .error e
    | .ok h =>
      match applyTweaks table config ps with
      | .error e => .error e
      | .ok r => .ok (h ++ r)

end Verif
