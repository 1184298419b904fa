import Verif.Model.Config

/-!
The parsers of `edulint/config/config.py`, `edulint/config/utils.py`, `edulint/config/option_sets.py`,
`edulint/config/language_translations.py` (the parser) and the path functions of
`edulint/config/file_config.py`.

The outside world is a record of parameters (`Env`).
-/

namespace Verif

/-! ### Options written as text -/

/-- Why an argument was refused: the three warnings of `parse_option`,
`edulint/config/config.py:264-273`. -/
inductive ParseWarning where
  | unrecognized
  | valueMissing
  | valueUnexpected
  deriving DecidableEq, Repr

/-- `parse_option`, `edulint/config/config.py:257-276`; only the presence of a value matters. -/
def parseOption (name : Str) (hasVal : Bool) : Except ParseWarning Opt :=
  match Opt.safeFromName name with
  | none => .error .unrecognized
  | some o =>
    if (optionParse o).takesVal = .yes ∧ hasVal = false then .error .valueMissing
    else if (optionParse o).takesVal = .no ∧ hasVal = true then .error .valueUnexpected
    else .ok o

/-- `get_name_val` inside `parse_args`, `edulint/config/config.py:280-284`. -/
def getNameVal (arg : Str) : Str × Option Str :=
  match splitOnce '=' arg with
  | some (name, val) => (name, some val)
  | none => (arg, none)

/-- `parse_args`, `edulint/config/config.py:279-292`: the options and, beside them, the arguments that
were answered with a warning. -/
def parseArgs : List Str → List RawArg × List (Str × ParseWarning)
  | [] => ([], [])
  | arg :: rest =>
    let nv := getNameVal arg
    let more := parseArgs rest
    match parseOption nv.1 nv.2.isSome with
    | .ok o => (⟨o, nv.2⟩ :: more.1, more.2)
    | .error w => (more.1, (arg, w) :: more.2)

/-- Python's `str.isspace` for one character (also `\s` of a `str` pattern). -/
def isSpace (c : Char) : Bool :=
  let n := c.toNat
  (9 ≤ n && n ≤ 13) || (28 ≤ n && n ≤ 32) || n == 0x85 || n == 0xa0 || n == 0x1680
    || (0x2000 ≤ n && n ≤ 0x200a) || n == 0x2028 || n == 0x2029 || n == 0x202f || n == 0x205f || n == 0x3000

/-- `line.strip()`. -/
def strip (s : Str) : Str := ((s.dropWhile isSpace).reverse.dropWhile isSpace).reverse

/-- The label searched by the pattern of `extract_args`, `edulint/config/config.py:237`. -/
def edulintLabel : Str := "edulint:".toList

/-- Match of the pattern `\s*#[\s#]*edulint:\s*` (ignoring case) at the start of a line: the rest of the
line, `edulint/config/config.py:237,245-248`. -/
def matchEdulint (line : Str) : Option Str :=
  match line.dropWhile isSpace with
  | '#' :: rest =>
    let rest := rest.dropWhile (fun c => isSpace c || c == '#')
    if startsWith (lower rest) edulintLabel then
      some ((rest.drop edulintLabel.length).dropWhile isSpace)
    else none
  | _ => none

/-- All suffixes of a list, the longest first. -/
def suffixes {α : Type} : List α → List (List α)
  | [] => [[]]
  | a :: l => (a :: l) :: suffixes l

/-- `import.+week_(\d+)`: the text after `ib111` and white space, `edulint/config/config.py:238`. -/
def ib111Tail (s : Str) : Bool :=
  startsWith s "import".toList &&
    ((suffixes (s.drop 6)).drop 1).any fun t =>
      startsWith t "week_".toList && ((t.drop 5).head?.any Char.isDigit)

/-- Match of `.*from\s+ib111\s+import.+week_(\d+)` (ignoring case) in a line,
`edulint/config/config.py:238,250-252`. (ASCII digits only; case is folded for ASCII letters only, here and
in `matchEdulint`.) -/
def matchIb111 (line : Str) : Bool :=
  (suffixes (lower line)).any fun t =>
    startsWith t "from".toList &&
      (let u := t.drop 4
       let v := u.dropWhile isSpace
       (v.length < u.length) && startsWith v "ib111".toList &&
        (let x := v.drop 5
         let y := x.dropWhile isSpace
         (y.length < x.length) && ib111Tail y))

/-! ### The outside world -/

/-- A value read from a TOML file. `other` stands for floats, dates and times. -/
inductive Toml where
  | str (s : Str)
  | int (n : Int)
  | bool (b : Bool)
  | other
  | arr (l : List Toml)
  | table (d : List (Str × Toml))

/-- `Translation`, `edulint/config/language_translations.py:54-60`. -/
structure Translation where
  translation : Str
  extracts : Toml

/-- `LangTranslations`, `edulint/config/language_translations.py:107`. -/
abbrev LangTranslations := Dict Str Translation

/-- What the configuration code asks of its surroundings. -/
structure Env where
  /-- `shlex.split`, which raises `ValueError` on unbalanced quotes. -/
  shlex : Str → Except PyErr (List Str)
  /-- `load_toml_file` (`edulint/config/file_config.py:39-51`), as far as it depends on disk and network. -/
  load : Str → Option (Dict Str Toml)
  /-- `os.path.isdir`. -/
  isDir : Str → Bool
  /-- `os.path.abspath(os.path.join(os.path.dirname(parent), file))`, given `file`, `parent`. -/
  absJoin : Str → Str → Str
  /-- `Path(path).stem`. -/
  stem : Str → Str
  /-- Names in the directories from the one holding a file up to (not including) the root. -/
  parents : Str → List (List Str)

/-- `ConfigFileType`, `edulint/config/file_config.py:33-36`. -/
inductive ConfigFileType where
  | remote
  | local
  | packaged
  deriving DecidableEq, Repr

/-- Membership in `ALLOWED_FILENAME_LETTERS`, `edulint/config/file_config.py:16`. -/
def allowedLetter (c : Char) : Bool :=
  ('a' ≤ c && c ≤ 'z') || ('A' ≤ c && c ≤ 'Z') || ('0' ≤ c && c ≤ '9') || c == '-' || c == '_'

/-- `get_config_type`, `edulint/config/file_config.py:54-61` with `_only_acceptable_chars` (`:88-89`). -/
def getConfigType (s : Str) : ConfigFileType :=
  if startsWith s "http://".toList || startsWith s "https://".toList then .remote
  else if s.all allowedLetter then .packaged
  else .local

/-- `os.path.isabs` (POSIX). -/
def isAbs (s : Str) : Bool := startsWith s ['/']

/-- `get_path_relative_to`, `edulint/config/file_config.py:64-70`. -/
def getPathRelativeTo (env : Env) (file parent : Str) : Except PyErr Str :=
  if getConfigType file ≠ .local ∨ isAbs file = true then .ok file
  else if env.isDir parent then .error .assertionError
  else .ok (env.absJoin file parent)

/-! ### In-file configuration -/

/-- Loop of `extract_args` over the lines of a file, `edulint/config/config.py:240-254`. -/
def extractArgs (env : Env) : List Str → Except PyErr (List Str)
  | [] => .ok []
  | line :: rest =>
    let line := strip line
    let here : Except PyErr (List Str) :=
      match matchEdulint line with
      | none => .ok []
      | some raw => env.shlex raw
    match here with
    | .error e => .error e
    | .ok args =>
      match extractArgs env rest with
      | .error e => .error e
      | .ok more =>
        .ok (args ++ (if matchIb111 line then [Opt.toName .configFile ++ "=ib111.toml".toList] else []) ++ more)

/-- `resolve_relative_option_path`, `edulint/config/config.py:314-321`. The value of both options it is
called for is a string or `None`. -/
def resolveRelative (env : Env) (path : Str) (c : Config) (o : Opt) : Except PyErr Config :=
  match c.getLastValue o false with
  | .error e => .error e
  | .ok (.str s) =>
    match getPathRelativeTo env s path with
    | .error e => .error e
    | .ok p => .ok { c with config := c.config ++ [some ⟨o, .str p⟩] }
  | .ok .none => .ok c
  | .ok _ => .error .attributeError

/-- `_ignore_infile`, `edulint/config/config.py:474-476`; the option's values are lists. -/
def ignoreInfile (c : Config) : Except PyErr Bool :=
  match c.getLastValue .ignoreInfileConfigFor true with
  | .error e => .error e
  | .ok (.list l) => .ok (l.contains "edulint".toList || l.contains "all".toList)
  | .ok _ => .error .typeError

/-- `resolve_ignore_infile_config`, `edulint/config/config.py:324-337`. (The `else` branch is not
reachable: the condition is the one `_ignore_infile` tests; it is transcribed all the same.) -/
def resolveIgnoreInfile (parsed : List RawArg) (c : Config) : Except PyErr Config :=
  match ignoreInfile c with
  | .error e => .error e
  | .ok false => .ok c
  | .ok true =>
    match c.getLastValue .ignoreInfileConfigFor false with
    | .error e => .error e
    | .ok (.list l) =>
      let s := joinWith [','] l
      let parsed :=
        if l.contains "edulint".toList || l.contains "all".toList then
          [RawArg.mk .ignoreInfileConfigFor (some s)]
        else parsed ++ [RawArg.mk .ignoreInfileConfigFor (some s)]
      mkConfig (some "in-file".toList) parsed
    | .ok _ => .error .assertionError

/-- `IMPLICIT_CONFIG_FILENAMES`, `edulint/config/config.py:36`. -/
def implicitConfigFilenames : List Str := ["edulint.toml".toList, ".edulint.toml".toList]

/-- `elem.name == IMPLICIT_CONFIG_FILENAMES`, `edulint/config/config.py:345`: a string is compared with a
tuple of strings, which Python answers with `False` whatever the operands are. -/
def strEqTuple (_name : Str) (_tuple : List Str) : Bool := false

/-- `search_for_config_in_parents`, `edulint/config/config.py:340-348`: the names in the directories
from the file's own upwards; the result is the position of the directory and the name found. -/
def searchParents : List (List Str) → Option (Nat × Str)
  | [] => none
  | dir :: up =>
    match dir.find? (fun name => strEqTuple name implicitConfigFilenames) with
    | some name => some (0, name)
    | none => (searchParents up).map fun r => (r.1 + 1, r.2)

/-- `parse_infile_config`, `edulint/config/config.py:351-364`. `str(path / elem)` of a found implicit
configuration file is represented by the bare name (the search never succeeds). -/
def parseInfileConfig (env : Env) (path : Str) (lines : List Str) : Except PyErr Config :=
  match extractArgs env lines with
  | .error e => .error e
  | .ok extracted =>
    let parsed := (parseArgs extracted).1
    let parsed :=
      match searchParents (env.parents path) with
      | none => parsed
      | some (_, name) => RawArg.mk .configFile (some name) :: parsed
    match mkConfig (some "in-file".toList) parsed with
    | .error e => .error e
    | .ok c =>
      match resolveRelative env path c .configFile with
      | .error e => .error e
      | .ok c =>
        match resolveRelative env path c .languageFile with
        | .error e => .error e
        | .ok c => resolveIgnoreInfile parsed c

/-! ### Configuration files -/

/-- `str(n)` of an `int`. -/
def intStr (n : Int) : Str := (toString n).toList

/-- `",".join(val)` of a list: every element has to be a string. -/
def joinToml : List Toml → Except PyErr (List Str)
  | [] => .ok []
  | .str s :: rest =>
    match joinToml rest with
    | .ok more => .ok (s :: more)
    | .error e => .error e
  | _ :: _ => .error .typeError

/-- `config_file_val_to_str` on a value that is not a pair, `edulint/config/utils.py:16-28`. A `bool` is an
`int` for Python. `none` is accompanied by a warning. -/
def tomlToStr : Toml → Except PyErr (Option Str)
  | .int n => .ok (some (intStr n))
  | .bool b => .ok (some (if b then "True".toList else "False".toList))
  | .str s => .ok (some s)
  | .arr l =>
    match joinToml l with
    | .ok parts => .ok (some (joinWith [','] parts))
    | .error e => .error e
  | .other => .ok none
  | .table _ => .ok none

/-- `config_file_val_to_str` on a pair, `edulint/config/utils.py:23-26`. -/
def tomlPairToStr (key : Str) (v : Toml) : Except PyErr (Option Str) :=
  match tomlToStr v with
  | .error e => .error e
  | .ok none => .ok none
  | .ok (some s) => .ok (some ("--".toList ++ key ++ ['='] ++ s))

/-- `to_process` followed by the conversion of its elements: a table gives one string per entry, any
other value at most one (`edulint/config/config.py:411-422`, `edulint/config/option_sets.py:50-57`). -/
def tomlPairs : List (Str × Toml) → Except PyErr (List Str)
  | [] => .ok []
  | (k, v) :: rest =>
    match tomlPairToStr k v with
    | .error e => .error e
    | .ok s =>
      match tomlPairs rest with
      | .error e => .error e
      | .ok more => .ok (s.toList ++ more)

@[inherit_doc tomlPairs]
def tomlStrings : Toml → Except PyErr (List Str)
  | .table d => tomlPairs d
  | v =>
    match tomlToStr v with
    | .error e => .error e
    | .ok s => .ok s.toList

/-- The inner loop of `parse_option_sets`, `edulint/config/option_sets.py:39-60`. Empty strings are
dropped (`if str_val`). -/
def parseOptionSet : List (Str × Toml) → OptionSet → Except PyErr OptionSet
  | [], acc => .ok acc
  | (linter, v) :: rest, acc =>
    match Linter.safeFromName linter with
    | none => parseOptionSet rest acc
    | some l =>
      match tomlStrings v with
      | .error e => .error e
      | .ok strs =>
        let strs := strs.filter fun s => s ≠ []
        parseOptionSet rest (if strs = [] then acc else Dict.set acc l strs)

/-- The outer loop of `parse_option_sets`, `edulint/config/option_sets.py:28-65`. -/
def parseOptionSetsGo : List (Str × Toml) → OptionSets → Except PyErr OptionSets
  | [], acc => .ok acc
  | (name, .table d) :: rest, acc =>
    match parseOptionSet d [] with
    | .error e => .error e
    | .ok os => parseOptionSetsGo rest (if os = [] then acc else Dict.set acc name os)
  | _ :: rest, acc => parseOptionSetsGo rest acc

/-- `parse_option_sets`, `edulint/config/option_sets.py:19-65`; `none` for a value that is not a table. -/
def parseOptionSets : Toml → Except PyErr (Option OptionSets)
  | .table d =>
    match parseOptionSetsGo d [] with
    | .error e => .error e
    | .ok s => .ok (some s)
  | _ => .ok none

/-- Labels with a meaning of their own in a configuration file, `edulint/option_parses.py:172-175`. -/
def optionSetsLabel : Str := "translations".toList
@[inherit_doc optionSetsLabel] def langTranslationsLabel : Str := "language-translations".toList
@[inherit_doc optionSetsLabel] def translatedExtractsLabel : Str := "translated_extracts".toList
@[inherit_doc optionSetsLabel] def defaultEnablerLabel : Str := "default-enabler-name".toList

-- The labels as they occur in the configuration files shipped with the program.
example : [optionSetsLabel, langTranslationsLabel, translatedExtractsLabel, defaultEnablerLabel].map String.ofList
    = ["translations", "language-translations", "translated_extracts", "default-enabler-name"] := by decide

/-- `parse_lang_translations`, `edulint/config/language_translations.py:110-173` (the checks in lines
126-157 only log). `none` for a value that is not a table. -/
def parseLangTranslations : Toml → Option LangTranslations
  | .table d =>
    let extracts : Dict Str Toml :=
      match Dict.get? d translatedExtractsLabel with
      | some (.table e) => e
      | _ => []
    some (d.foldl (fun acc kv =>
      match kv with
      | (id, .str s) =>
        if id = translatedExtractsLabel then acc
        else Dict.set acc id ⟨s, (Dict.get? extracts id).getD (.table [])⟩
      | _ => acc) [])
  | _ => none

/-- `parse_lang_file`, `edulint/config/language_translations.py:176-180`. -/
def parseLangFile (env : Env) (file : Str) : LangTranslations :=
  match env.load file with
  | none => []
  | some d => (parseLangTranslations (.table d)).getD []

/-- What the loop of `parse_config_file` collects: `result`, `this_file_option_sets`,
`this_file_lang_translations` (`none` stands for Python's `None`), `edulint/config/config.py:391-393`. -/
structure FileParts where
  args : List RawArg
  sets : Option OptionSets
  lang : Option LangTranslations

/-- Names of linters, for the test in `edulint/config/config.py:413`. -/
def isLinterName (s : Str) : Bool := Linter.all.any fun l => l.toName = s

/-- The strings an ordinary entry of a configuration file contributes,
`edulint/config/config.py:408-422`. -/
def entryStrings (env : Env) (path : Str) (o : Opt) (v : Toml) : Except PyErr (List Str) :=
  let v' : Except PyErr Toml :=
    if o = .languageFile then
      match v with
      | .str s =>
        match getPathRelativeTo env s path with
        | .ok p => .ok (.str p)
        | .error e => .error e
      | _ => .error .attributeError
    else .ok v
  match v' with
  | .error e => .error e
  | .ok (.table d) => if isLinterName o.toName then tomlPairs d else .ok []
  | .ok v => tomlStrings v

/-- Loop over the entries of a configuration file, `edulint/config/config.py:394-422`. -/
def fileEntries (env : Env) (path : Str) : Dict Str Toml → FileParts → Except PyErr FileParts
  | [], acc => .ok acc
  | (name, v) :: rest, acc =>
    if name = optionSetsLabel then
      match parseOptionSets v with
      | .error e => .error e
      | .ok s => fileEntries env path rest { acc with sets := s }
    else if name = langTranslationsLabel then
      fileEntries env path rest { acc with lang := parseLangTranslations v }
    else if name = defaultEnablerLabel then fileEntries env path rest acc
    else
      match parseOption name true with
      | .error _ => fileEntries env path rest acc
      | .ok o =>
        if o = .configFile then fileEntries env path rest acc
        else
          match entryStrings env path o v with
          | .error e => .error e
          | .ok strs =>
            fileEntries env path rest
              { acc with args := acc.args ++ strs.map fun s => RawArg.mk o (some s) }

/-- The reference to the base file, `edulint/config/config.py:371-375`. -/
def baseReference (env : Env) (path : Str) (d : Dict Str Toml) : Except PyErr Str :=
  let ref := match Dict.get? d (Opt.toName .configFile) with
    | some (.str s) => s
    | _ => baseConfigName
  getPathRelativeTo env ref path

/-- The name under which a file's settings are remembered, `edulint/config/config.py:424`. (A
`default-enabler-name` that is not a string is only ever displayed; it is replaced by the stem here.) -/
def enablerName (env : Env) (path : Str) (d : Dict Str Toml) : Str :=
  match Dict.get? d defaultEnablerLabel with
  | some (.str s) => s
  | _ => env.stem path

/-- Result of reading a configuration file. -/
abbrev FileConfig := Config × OptionSets × LangTranslations

/-- `{**base, **None}` raises `TypeError`. -/
def mergeOrFail {ν : Type} (base : Dict Str ν) : Option (Dict Str ν) → Except PyErr (Dict Str ν)
  | none => .error .typeError
  | some d => .ok (Dict.merge base d)

/-- The part of `parse_config_file` after the base has been read, `edulint/config/config.py:391-430`. -/
def extendBase (env : Env) (path : Str) (d : Dict Str Toml) (base : FileConfig) : Except PyErr FileConfig :=
  match fileEntries env path d ⟨[], some [], some []⟩ with
  | .error e => .error e
  | .ok parts =>
    match mkConfig (some (enablerName env path d)) parts.args with
    | .error e => .error e
    | .ok this =>
      match Config.combine base.1 this with
      | .error e => .error e
      | .ok c =>
        match mergeOrFail base.2.1 parts.sets with
        | .error e => .error e
        | .ok sets =>
          match mergeOrFail base.2.2 parts.lang with
          | .error e => .error e
          | .ok lang => .ok (c, sets, lang)

/-- `parse_config_file`, `edulint/config/config.py:367-430`. The first argument is Python's recursion
limit: when it is used up, `RecursionError` is raised. -/
def parseConfigFile (env : Env) : Nat → Str → Except PyErr (Option FileConfig)
  | 0, _ => .error .recursionError
  | fuel + 1, path =>
    match env.load path with
    | none => .ok none
    | some d =>
      let base : Except PyErr (Option FileConfig) :=
        if path ≠ baseConfigName then
          match baseReference env path d with
          | .error e => .error e
          | .ok ref => parseConfigFile env fuel ref
        else
          match mkConfig none [] with
          | .error e => .error e
          | .ok c => .ok (some (c, [], []))
      match base with
      | .error e => .error e
      | .ok none => .ok none
      | .ok (some base) =>
        match extendBase env path d base with
        | .error e => .error e
        | .ok r => .ok (some r)

end Verif
