import Verif.Model.Linting
import Verif.Model.Explanations

/-!
Output with `--json`: `edulint/edulint.py: to_json` and `print_message_explanations`.

`json.dumps` and `Problem.schema().dumps` are parts of Python's and of other libraries; how they write is modelled
here from their documentation and source: ASCII only, members in the order of the dictionary, `", "` and `": "`
between members if nothing is said about indentation, and otherwise one member per line.
-/

namespace Verif

/-- A JSON value; numbers are whole. -/
inductive Json where
  | null
  | bool (b : Bool)
  | num (n : Int)
  | str (s : Str)
  | arr (l : List Json)
  | obj (l : List (Str × Json))

namespace Json

/-- A hexadecimal digit as Python's `format(n, "x")` writes it. -/
def hexDigit (n : Nat) : Char :=
  if n < 10 then Char.ofNat (48 + n) else Char.ofNat (87 + n)

/-- `\uXXXX` for one unit of 16 bits. -/
def escUnit (n : Nat) : Str :=
  ['\\', 'u', hexDigit (n / 4096 % 16), hexDigit (n / 256 % 16), hexDigit (n / 16 % 16), hexDigit (n % 16)]

/-- One character as `json.dumps` writes it (`ensure_ascii` is true by default): used by
`edulint/edulint.py:128-131,268`. -/
def escChar (c : Char) : Str :=
  if c = '"' then ['\\', '"']
  else if c = '\\' then ['\\', '\\']
  else if c.toNat = 10 then ['\\', 'n']
  else if c.toNat = 13 then ['\\', 'r']
  else if c.toNat = 9 then ['\\', 't']
  else if c.toNat = 12 then ['\\', 'f']
  else if c.toNat = 8 then ['\\', 'b']
  else if 32 ≤ c.toNat ∧ c.toNat ≤ 126 then [c]
  else if c.toNat < 65536 then escUnit c.toNat
  else escUnit (55296 + (c.toNat - 65536) / 1024) ++ escUnit (56320 + (c.toNat - 65536) % 1024)

/-- A string with its quotes. -/
def dumpStr (s : Str) : Str := '"' :: s.flatMap escChar ++ ['"']

/-- What is before the first member and after the last one: nothing, or a new line with its indentation. -/
def newline (indent : Option Nat) (level : Nat) : Str :=
  match indent with
  | none => []
  | some n => '\n' :: List.replicate (n * level) ' '

/-- What is between two members. -/
def between (indent : Option Nat) (level : Nat) : Str :=
  match indent with
  | none => [',', ' ']
  | some n => ',' :: '\n' :: List.replicate (n * level) ' '

mutual
/-- `json.dumps(value, indent=indent)`, used by `edulint/edulint.py:128-131,268`. -/
def dump (indent : Option Nat) (level : Nat) : Json → Str
  | null => "null".toList
  | bool true => "true".toList
  | bool false => "false".toList
  | num n => intStr n
  | str s => dumpStr s
  | arr [] => "[]".toList
  | arr (v :: vs) => '[' :: newline indent (level + 1) ++ dump indent (level + 1) v ++
      dumpElems indent (level + 1) vs ++ newline indent level ++ [']']
  | obj [] => "{}".toList
  | obj ((k, v) :: fs) => '{' :: newline indent (level + 1) ++ dumpStr k ++ ": ".toList ++ dump indent (level + 1) v ++
      dumpFields indent (level + 1) fs ++ newline indent level ++ ['}']
/-- The elements after the first one. -/
def dumpElems (indent : Option Nat) (level : Nat) : List Json → Str
  | [] => []
  | v :: vs => between indent level ++ dump indent level v ++ dumpElems indent level vs
/-- The members after the first one. -/
def dumpFields (indent : Option Nat) (level : Nat) : List (Str × Json) → Str
  | [] => []
  | (k, v) :: fs => between indent level ++ dumpStr k ++ ": ".toList ++ dump indent level v ++ dumpFields indent level fs
end

end Json

/-- A value of an option: `json` writes tuples as arrays, `edulint/edulint.py:125`. -/
def Val.json : Val → Json
  | .none => .null
  | .bool b => .bool b
  | .str s => .str s
  | .list l => .arr (l.map .str)
  | .int n => .num n

/-- `config_to_json`, `edulint/edulint.py:123-126`; the names of options differ, so no member replaces another. -/
def ImmutableConfig.json (ic : ImmutableConfig) : Json :=
  .obj (ic.config.map fun a => (a.option.toName, a.val.json))

/-- A text or `null`. -/
def Json.ofStr? : Option Str → Json
  | none => .null
  | some s => .str s

/-- A number or `null`. -/
def Json.ofInt? : Option Int → Json
  | none => .null
  | some n => .num n

/-- The members that the schema of `Problem` writes, `edulint/linting/problem.py:10-38`; the linter is written by
`mm_fields.Str()`, that is, by `Linter.__str__`. -/
def Problem.json (p : Problem) : Json :=
  .obj [("source".toList, .str p.source.toName), ("enabled_by".toList, .ofStr? p.enabledBy), ("path".toList, .str p.path),
    ("line".toList, .num p.line), ("column".toList, .num p.column), ("code".toList, .str p.code),
    ("text".toList, .str p.text), ("end_line".toList, .ofInt? p.endLine), ("end_column".toList, .ofInt? p.endColumn),
    ("symbol".toList, .ofStr? p.symbol)]

/-- `to_json`, `edulint/edulint.py:120-132`. -/
def toJson (configs : List ImmutableConfig) (problems : List Problem) : Str :=
  "{\"configs\": ".toList ++ (Json.arr (configs.map (·.json))).dump none 0 ++
    ", \"problems\": ".toList ++ (Json.arr (problems.map (·.json))).dump (some 2) 0 ++ ['}']

/-- What `check_and_print` prints with `--json`, `edulint/edulint.py:182-190`: one text if nothing failed. -/
def printJson : Except PyErr (Option (List RunGroup × List Problem)) → List Str
  | .ok (some (groups, problems)) => [toJson (groups.map (·.config)) problems]
  | _ => []

/-- An explanation as it is read from TOML: only the parts that it has. -/
def Expl.json (e : Expl) : Json :=
  .obj ((match e.why with
      | none => []
      | some s => [("why".toList, .str s)]) ++
    (match e.examples with
      | none => []
      | some s => [("examples".toList, .str s)]))

/-- What `print_message_explanations` prints with `--json`, `edulint/edulint.py:261-268`. -/
def explainJson (all : Expls) (ids : List Str) : Str :=
  let found := messageExpls all (if ids.any fun id => lower id = "all".toList then none else some ids)
  (Json.obj [("explanations".toList, .obj (found.map fun f => (f.1, f.2.json)))]).dump (some 2) 0

end Verif
