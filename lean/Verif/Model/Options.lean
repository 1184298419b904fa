import Verif.Base.Str
import Verif.Base.Dict

/-!
`edulint/options.py`, `edulint/linters.py`, `edulint/option_parses.py`.
-/

namespace Verif

/-- `edulint/options.py:18-30`, class `Option`, in declaration order. -/
inductive Opt where
  | configFile
  | pylint
  | flake8
  | allowedOnecharNames
  | disallowedBuiltinNames
  | noFlake8
  | ignoreInfileConfigFor
  | exportGroups
  | setGroups
  | languageFile
  deriving DecidableEq, Repr

namespace Opt

/-- Iteration over the enumeration (`for o in Option`), `edulint/options.py:18-30`. -/
def all : List Opt :=
  [configFile, pylint, flake8, allowedOnecharNames, disallowedBuiltinNames, noFlake8,
   ignoreInfileConfigFor, exportGroups, setGroups, languageFile]

/-- The member name (`self.name`), `edulint/options.py:21-30`. -/
def name : Opt → Str
  | configFile => "CONFIG_FILE".toList
  | pylint => "PYLINT".toList
  | flake8 => "FLAKE8".toList
  | allowedOnecharNames => "ALLOWED_ONECHAR_NAMES".toList
  | disallowedBuiltinNames => "DISALLOWED_BUILTIN_NAMES".toList
  | noFlake8 => "NO_FLAKE8".toList
  | ignoreInfileConfigFor => "IGNORE_INFILE_CONFIG_FOR".toList
  | exportGroups => "EXPORT_GROUPS".toList
  | setGroups => "SET_GROUPS".toList
  | languageFile => "LANGUAGE_FILE".toList

/-- `int(option)`: `NumberFromZero.__new__` numbers members from zero in declaration order,
`edulint/options.py:5-10,54-55`. -/
def toNat : Opt → Nat
  | configFile => 0
  | pylint => 1
  | flake8 => 2
  | allowedOnecharNames => 3
  | disallowedBuiltinNames => 4
  | noFlake8 => 5
  | ignoreInfileConfigFor => 6
  | exportGroups => 7
  | setGroups => 8
  | languageFile => 9

/-- `Option.to_name`, `edulint/options.py:32-33`. -/
def toName (o : Opt) : Str := replaceChar '_' '-' (lower o.name)

/-- `OPTION_ALIASES`, `edulint/options.py:58`. -/
def aliases : Dict Str Opt := [("config".toList, configFile)]

/-- `Option.safe_from_name`, `edulint/options.py:35-44`. -/
def safeFromName (s : Str) : Option Opt :=
  match Dict.get? aliases (lower s) with
  | some o => some o
  | none => Opt.all.find? fun o => o.toName = lower s

/-- `Option.from_name`, `edulint/options.py:46-52`. -/
def fromName (s : Str) : Except PyErr Opt :=
  match safeFromName s with
  | some o => .ok o
  | none => .error .assertionError

end Opt

/-- `DEFAULT_CONFIG`, `edulint/options.py:60`. -/
def defaultConfigName : Str := "default".toList
/-- `BASE_CONFIG`, `edulint/options.py:61`. -/
def baseConfigName : Str := "empty".toList

/-- `edulint/linters.py:6-11`, class `Linter`. -/
inductive Linter where
  | edulint
  | pylint
  | flake8
  deriving DecidableEq, Repr

namespace Linter

/-- Iteration over the enumeration, `edulint/linters.py:9-11`. -/
def all : List Linter := [edulint, pylint, flake8]

/-- `Linter.__str__` / `Linter.to_name`, `edulint/linters.py:13-14,30-31`. -/
def toName : Linter → Str
  | edulint => "edulint".toList
  | pylint => "pylint".toList
  | flake8 => "flake8".toList

/-- `Linter.safe_from_name`, `edulint/linters.py:16-21`. -/
def safeFromName (s : Str) : Option Linter :=
  Linter.all.find? fun l => l.toName = lower s

/-- `Linter.to_option`, `edulint/linters.py:37-38`; there is no option named `edulint`, so
`Option.from_name` fails with an assertion for `Linter.EDULINT`. -/
def toOption (l : Linter) : Except PyErr Opt := Opt.fromName l.toName

end Linter

/-- Option values, `UnionT` in `edulint/options.py:14`. -/
inductive Val where
  | none
  | bool (b : Bool)
  | str (s : Str)
  | list (l : List Str)
  | int (n : Nat)
  deriving DecidableEq, Repr

/-- `TakesVal`, `edulint/option_parses.py:8-11`. -/
inductive TakesVal where
  | yes
  | no
  | optional
  deriving DecidableEq, Repr

/-- `Type`, `edulint/option_parses.py:22-53`. -/
inductive OptType where
  | bool
  | list
  | commaSeparatedList
  | str
  | int
  deriving DecidableEq, Repr

/-- `str.isdecimal()` for ASCII digits and `int(val)`: value of a non-empty all-digit string. -/
def decimalValue? (s : Str) : Option Nat :=
  if s ≠ [] ∧ s.all Char.isDigit then
    some (s.foldl (fun acc c => acc * 10 + (c.toNat - '0'.toNat)) 0)
  else none

/-- `Type.convert`, `edulint/option_parses.py:23-41`. -/
def OptType.convert : OptType → Option Str → Val
  | .bool, v => .bool (match v with
      | Option.none => true
      | some s => s = "true".toList || s = "on".toList)
  | .list, v => .list (match v with
      | Option.none => []
      | some s => [s])
  | .commaSeparatedList, v => .list (match v with
      | Option.none => []
      | some [] => []
      | some s => splitOn ',' s)
  | .str, v => match v with
      | Option.none => .none
      | some s => .str s
  | .int, v => match v with
      | Option.none => .none
      | some s => match decimalValue? s with
        | some n => .int n
        | Option.none => .none

/-- `Combine`, `edulint/option_parses.py:56-76`. -/
inductive Combine where
  | replace
  | extend
  deriving DecidableEq, Repr

/-- `Combine.__call__`, `edulint/option_parses.py:57-73`: `rt`, respectively `lt + rt`.
`+` is defined by Python for two lists, two strings and two numbers, otherwise it raises
`TypeError` (the numeric cases cannot occur for an extending option and are an error here). -/
def Combine.apply : Combine → Val → Val → Except PyErr Val
  | .replace, _, rt => .ok rt
  | .extend, .list a, .list b => .ok (.list (a ++ b))
  | .extend, .str a, .str b => .ok (.str (a ++ b))
  | .extend, _, _ => .error .typeError

/-- `OptionParse`, `edulint/option_parses.py:79-86` (without the help text). -/
structure OptionParse where
  takesVal : TakesVal
  default : Val
  type : OptType
  combine : Combine
  deriving DecidableEq, Repr

/-- `OPTIONS` / `get_option_parses()`, `edulint/option_parses.py:89-170,178-179`. -/
def optionParse : Opt → OptionParse
  | .configFile => ⟨.yes, .str defaultConfigName, .str, .replace⟩
  | .pylint => ⟨.yes, .list [], .list, .extend⟩
  | .flake8 => ⟨.yes, .list [], .list, .extend⟩
  | .allowedOnecharNames => ⟨.yes, .none, .str, .replace⟩
  | .noFlake8 => ⟨.no, .bool false, .bool, .replace⟩
  | .ignoreInfileConfigFor => ⟨.yes, .list [], .commaSeparatedList, .replace⟩
  | .exportGroups => ⟨.yes, .list [], .commaSeparatedList, .replace⟩
  | .setGroups => ⟨.yes, .list [], .commaSeparatedList, .replace⟩
  | .disallowedBuiltinNames => ⟨.yes, .list [], .commaSeparatedList, .replace⟩
  | .languageFile => ⟨.yes, .none, .str, .replace⟩

end Verif
