import Verif.Model.Problem
import Verif.Model.Regex

/-!
Translation of messages: `edulint/config/language_translations.py` and `translate` of
`edulint/linting/linting.py`.
-/

namespace Verif

/-- A message template of a linter: literal characters and places filled in by the linter. -/
inductive Seg where
  | lit (c : Char)
  | hole
  deriving DecidableEq, Repr

/-- `to_pattern`, `edulint/config/language_translations.py:19-20`: `%r`, `%s`, `%d` (in either case) become
`(.*)`, everything else is literal. Escaping does not touch `%` and letters. -/
def toPattern : Str → List Seg
  | '%' :: c :: rest =>
    if c.toLower = 'r' ∨ c.toLower = 's' ∨ c.toLower = 'd' then .hole :: toPattern rest
    else .lit '%' :: toPattern (c :: rest)
  | c :: rest => .lit c :: toPattern rest
  | [] => []

/-- The regular expression of a template, matched with `re.IGNORECASE`. -/
def Seg.atom : Seg → Atom
  | .lit c => .one fun d => d.toLower == c.toLower
  | .hole => .star dot

/-- `match.groups()`: the pieces at the holes. -/
def holePieces : List Seg → List Str → List Str
  | .hole :: ss, w :: ws => w :: holePieces ss ws
  | .lit _ :: ss, _ :: ws => holePieces ss ws
  | _, _ => []

/-- `str(n)`. -/
def natStr (n : Nat) : Str := (toString n).toList

/-- What translating depends on besides the problem. -/
structure TrEnv where
  /-- The message templates of pylint, edulint and flake8 by code, as collected by
  `edulint/config/language_translations.py:47-51` (before `to_pattern`). -/
  messages : Dict Str Str
  /-- `str(v)` for a value that is not a string. -/
  render : Toml → Str

/-- `mapping.get(word, word)` as text. -/
def mapWord (env : TrEnv) (mapping : Dict Str Toml) (word : Str) : Str :=
  match Dict.get? mapping word with
  | none => word
  | some (.str s) => s
  | some v => env.render v

/-- `Translation.translate_extracts`, `edulint/config/language_translations.py:68-85`; `i` is the position of
the first word. An ill-formed table raises. -/
def translateExtracts (env : TrEnv) (extracts : Toml) : Nat → List Str → Except PyErr (List Str)
  | _, [] => .ok []
  | i, w :: ws =>
    match extracts with
    | .table d =>
      let word : Except PyErr Str :=
        match Dict.get? d (natStr (i + 1)) with
        | none => .ok w
        | some (.table m) => .ok (mapWord env m w)
        | some _ => .error .attributeError
      match word with
      | .error e => .error e
      | .ok x =>
        match translateExtracts env extracts (i + 1) ws with
        | .error e => .error e
        | .ok xs => .ok (x :: xs)
    | _ => .error .attributeError

/-- Where `str.format` is in the template: in text, after `{`, inside a field (read backwards), after `}`. -/
inductive FmtState where
  | text
  | brace
  | field (acc : Str)
  | close

/-- Whether fields are numbered by the formatter or by hand. -/
inductive Numbering where
  | unknown
  | auto (next : Nat)
  | manual

/-- The argument a field stands for. Only `{}` and `{number}` are modelled; a field with a name, attribute,
index, conversion or format specification is an error here. -/
def fmtField (args : List Str) (num : Numbering) (field : Str) : Except PyErr (Str × Numbering) :=
  if field = [] then
    match num with
    | .manual => .error .valueError
    | .unknown =>
      match args[0]? with
      | none => .error .indexError
      | some a => .ok (a, .auto 1)
    | .auto n =>
      match args[n]? with
      | none => .error .indexError
      | some a => .ok (a, .auto (n + 1))
  else
    match decimalValue? field with
    | none => .error .keyError
    | some i =>
      match num with
      | .auto _ => .error .valueError
      | _ =>
        match args[i]? with
        | none => .error .indexError
        | some a => .ok (a, .manual)

/-- `template.format(*args)`. -/
def formatGo (args : List Str) : Numbering → FmtState → Str → Except PyErr Str
  | _, .text, [] => .ok []
  | _, _, [] => .error .valueError
  | num, .text, c :: s =>
    if c = '{' then formatGo args num .brace s
    else if c = '}' then formatGo args num .close s
    else match formatGo args num .text s with
      | .error e => .error e
      | .ok r => .ok (c :: r)
  | num, .brace, c :: s =>
    if c = '{' then
      match formatGo args num .text s with
      | .error e => .error e
      | .ok r => .ok ('{' :: r)
    else if c = '}' then
      match fmtField args num [] with
      | .error e => .error e
      | .ok (a, num) =>
        match formatGo args num .text s with
        | .error e => .error e
        | .ok r => .ok (a ++ r)
    else formatGo args num (.field [c]) s
  | num, .field acc, c :: s =>
    if c = '}' then
      match fmtField args num acc.reverse with
      | .error e => .error e
      | .ok (a, num) =>
        match formatGo args num .text s with
        | .error e => .error e
        | .ok r => .ok (a ++ r)
    else formatGo args num (.field (c :: acc)) s
  | num, .close, c :: s =>
    if c = '}' then
      match formatGo args num .text s with
      | .error e => .error e
      | .ok r => .ok ('}' :: r)
    else .error .valueError

@[inherit_doc formatGo] def pyFormat (template : Str) (args : List Str) : Except PyErr Str :=
  formatGo args .unknown .text template

/-- `Translation.translate`, `edulint/config/language_translations.py:87-104`. -/
def Translation.translate (env : TrEnv) (t : Translation) (code message : Str) : Except PyErr Str :=
  match Dict.get? env.messages code with
  | none => .ok t.translation
  | some template =>
    let segs := toPattern template
    if segs.contains .hole then
      match matchSeq (segs.map Seg.atom) message with
      | none => .ok t.translation
      | some ps =>
        match translateExtracts env t.extracts 0 (holePieces segs ps) with
        | .error e => .error e
        | .ok args => pyFormat t.translation args
    else .ok t.translation

/-- `translate`, `edulint/linting/linting.py:297-305`. -/
def translateProblem (env : TrEnv) (lang : LangTranslations) (p : Problem) : Except PyErr Problem :=
  let found : Option Translation :=
    match Dict.get? lang p.code with
    | some t => some t
    | none =>
      match p.symbol with
      | none => none
      | some s => Dict.get? lang s
  match found with
  | none => .ok p
  | some t =>
    match t.translate env p.code p.text with
    | .error e => .error e
    | .ok text => .ok { p with text := text }

end Verif
