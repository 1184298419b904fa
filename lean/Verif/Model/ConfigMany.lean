import Verif.Model.ConfigParse

/-!
`_parse_infile_configs` and `get_config_many` of `edulint/config/config.py`.
-/

namespace Verif

/-! ### File trees -/

mutual
/-- A file (its lines) or a directory. -/
inductive FTree where
  | file (lines : List Str)
  | dir (entries : FForest)
/-- The entries of a directory in the order of `os.listdir`. -/
inductive FForest where
  | nil
  | cons (name : Str) (tree : FTree) (rest : FForest)
end

/-- A path together with what lies at it. The code keeps only the path; the tree is what reading the path
yields. (A path that does not exist is not represented.) -/
structure Item where
  path : Str
  tree : FTree

/-- `os.path.join(path, name)` for a relative `name` (POSIX). -/
def joinPath (path name : Str) : Str :=
  if path = [] ∨ path.getLast? = some '/' then path ++ name else path ++ '/' :: name

/-- The part of a path after the last `/`. -/
def basename (p : Str) : Str := (p.reverse.takeWhile (· ≠ '/')).reverse

/-- `os.path.splitext(p)[1]` (POSIX): from the last dot of the last component, unless only dots precede it. -/
def extension (p : Str) : Str :=
  let b := basename p
  let ext := (b.reverse.takeWhile (· ≠ '.')).reverse
  let front := b.take (b.length - ext.length)
  if front.any (· ≠ '.') then '.' :: ext else []

/-- The test for a Python file, `edulint/config/config.py:524`. -/
def isPython (p : Str) : Bool := lower (extension p) = ".py".toList

/-! ### Grouping -/

/-- Equality of Python dictionaries: the order of the entries does not matter. -/
def dictEq (a b : Dict Str Str) : Bool :=
  a.length == b.length && a.all fun kv => Dict.get? b kv.1 = some kv.2

/-- Equality of `ImmutableConfig`s as dictionary keys, `edulint/config/config.py:203-214`. -/
def ImmutableConfig.same (a b : ImmutableConfig) : Bool :=
  decide (a.config = b.config) && dictEq a.enablers b.enablers

/-- The dictionary returned by `_parse_infile_configs`, `edulint/config/config.py:502`. -/
abbrev Groups := List (ImmutableConfig × Config × List Item)

/-- `if iconfig not in result: … else: …`, `edulint/config/config.py:516-519`. -/
def addGroup (key : ImmutableConfig) (config : Config) (items : List Item) : Groups → Groups
  | [] => [(key, config, items)]
  | (k, c, is) :: rest =>
    if k.same key then (k, c, is ++ items) :: rest
    else (k, c, is) :: addGroup key config items rest

/-- The inner loop of `aggregate_subresults`, `edulint/config/config.py:515-519`. -/
def addGroups (result sub : Groups) : Groups :=
  sub.foldl (fun acc g => addGroup g.1 g.2.1 g.2.2 acc) result

/-- `len(result) != 1` and the replacement by the directory itself, `edulint/config/config.py:532-536`. -/
def collapse1 (item : Item) : Groups → Groups
  | [(k, c, _)] => [(k, c, [item])]
  | result => result

mutual
/-- `_parse_infile_configs_rec`, `edulint/config/config.py:522-536`. -/
def infileRec (env : Env) (path : Str) : FTree → Except PyErr Groups
  | .file lines =>
    if isPython path then
      match parseInfileConfig env path lines with
      | .error e => .error e
      | .ok c =>
        match c.toImmutable [] with
        | .error e => .error e
        | .ok ic => .ok [(ic, c, [⟨path, .file lines⟩])]
    else .ok []
  | .dir entries =>
    match infileForest env path entries [] with
    | .error e => .error e
    | .ok result => .ok (collapse1 ⟨path, .dir entries⟩ result)
/-- `aggregate_subresults` over the entries of a directory, `edulint/config/config.py:511-520,530`. -/
def infileForest (env : Env) (path : Str) : FForest → Groups → Except PyErr Groups
  | .nil, acc => .ok acc
  | .cons name tree rest, acc =>
    match infileRec env (joinPath path name) tree with
    | .error e => .error e
    | .ok sub => infileForest env path rest (addGroups acc sub)
end

/-- `aggregate_subresults` over the given paths, `edulint/config/config.py:511-520,542`. -/
def infileItems (env : Env) : List Item → Groups → Except PyErr Groups
  | [], acc => .ok acc
  | i :: rest, acc =>
    match infileRec env i.path i.tree with
    | .error e => .error e
    | .ok sub => infileItems env rest (addGroups acc sub)

/-- `_parse_infile_configs`, `edulint/config/config.py:500-542`. -/
def parseInfileConfigs (env : Env) (items : List Item) (cmd : Config) : Except PyErr Groups :=
  match ignoreInfile cmd with
  | .error e => .error e
  | .ok true =>
    match mkConfig none [] with
    | .error e => .error e
    | .ok c =>
      match c.toImmutable [] with
      | .error e => .error e
      | .ok ic => .ok [(ic, c, items)]
  | .ok false => infileItems env items []

/-! ### The configurations of a run -/

/-- Reading the configuration file named by an option value, `edulint/config/config.py:560-562`. A value that
is not a string fails inside the `try` of `load_toml_file`, which answers `None`. The same path is read
once per group here, once per run in the code. -/
def parseConfigVal (env : Env) (fuel : Nat) : Val → Except PyErr (Option FileConfig)
  | .str s => parseConfigFile env fuel s
  | _ => .ok none

/-- The choice of the configuration, `edulint/config/config.py:567,579-585`. -/
def chooseConfig (file infile cmd : Config) (cmdPath : Val) : Except PyErr Config :=
  match Config.combine infile cmd with
  | .error e => .error e
  | .ok combined =>
    match ignoreInfile file with
    | .error e => .error e
    | .ok true => if cmdPath ≠ .none then Config.combine file cmd else .ok cmd
    | .ok false => Config.combine file combined

/-- `lang_file_results`, `edulint/config/config.py:563`. -/
abbrev LangCache := Dict Str LangTranslations

/-- The translations of a group and the updated cache, `edulint/config/config.py:588-595`. -/
def langOf (env : Env) (ic : ImmutableConfig) (lang : LangTranslations) (cache : LangCache) :
    Except PyErr (LangTranslations × LangCache) :=
  match ic.getItem .languageFile with
  | .error e => .error e
  | .ok (.str f) =>
    let fromFile := (Dict.get? cache f).getD (parseLangFile env f)
    let merged := Dict.merge lang fromFile
    .ok (merged, Dict.set cache f merged)
  | .ok _ => .ok (lang, cache)

/-- What `get_config_many` returns for one group. -/
structure RunGroup where
  items : List Item
  config : ImmutableConfig
  lang : LangTranslations

/-- The loop of `get_config_many`, `edulint/config/config.py:566-597`. -/
def runGroups (env : Env) (fuel : Nat) (cmd : Config) (cmdPath : Val) :
    Groups → LangCache → Except PyErr (List RunGroup)
  | [], _ => .ok []
  | (_, infile, items) :: rest, cache =>
    let path : Except PyErr Val :=
      if cmdPath ≠ .none then .ok cmdPath else infile.getLastValue .configFile true
    match path with
    | .error e => .error e
    | .ok path =>
      match parseConfigVal env fuel path with
      | .error e => .error e
      | .ok none => runGroups env fuel cmd cmdPath rest cache
      | .ok (some (file, sets, lang)) =>
        match chooseConfig file infile cmd cmdPath with
        | .error e => .error e
        | .ok config =>
          match config.toImmutable sets with
          | .error e => .error e
          | .ok ic =>
            match langOf env ic lang cache with
            | .error e => .error e
            | .ok (lang, cache) =>
              match runGroups env fuel cmd cmdPath rest cache with
              | .error e => .error e
              | .ok more => .ok (⟨items, ic, lang⟩ :: more)

/-- `get_config_many`, `edulint/config/config.py:545-598`. -/
def getConfigMany (env : Env) (fuel : Nat) (items : List Item) (cmdArgs : List Str) :
    Except PyErr (List RunGroup) :=
  match mkConfig (some "cmd".toList) (parseArgs cmdArgs).1 with
  | .error e => .error e
  | .ok cmd =>
    match parseInfileConfigs env items cmd with
    | .error e => .error e
    | .ok groups =>
      match cmd.getLastValue .configFile false with
      | .error e => .error e
      | .ok cmdPath => runGroups env fuel cmd cmdPath groups []

end Verif
