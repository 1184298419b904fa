import Verif.Model.Options

/-!
`edulint/config/arg.py`, `edulint/config/option_sets.py` (the data type), `edulint/config/utils.py`
and class `Config` of `edulint/config/config.py`.
-/

namespace Verif

/-- `ProcessedArg` / `ImmutableArg`, `edulint/config/arg.py:6-24`. -/
structure Arg where
  option : Opt
  val : Val
  deriving DecidableEq, Repr

/-- `UnprocessedArg`, `edulint/config/arg.py:22`. -/
structure RawArg where
  option : Opt
  val : Option Str
  deriving DecidableEq, Repr

/-- `OptionSet.to`, `edulint/config/option_sets.py:10-13`. -/
abbrev OptionSet := Dict Linter (List Str)

/-- `OptionSets`, `edulint/config/option_sets.py:16`. -/
abbrev OptionSets := Dict Str OptionSet

/-- `Config` objects, `edulint/config/config.py:39-40,110-130` (the table of options is fixed to
`get_option_parses()`). -/
structure Config where
  config : List (Option Arg)
  enablers : Dict Str Str
  deriving DecidableEq, Repr

/-- `Config._convert`, `edulint/config/config.py:42-46`. -/
def convertArg (a : RawArg) : Arg := ⟨a.option, (optionParse a.option).type.convert a.val⟩

/-- Loop state of `Config._combine`, `edulint/config/config.py:89-90`. -/
structure CombineState where
  indices : Opt → Option Nat
  results : List (Option Arg)

/-- Body of the loop of `Config._combine`, `edulint/config/config.py:91-106`. -/
def combineStep (allowed : List Combine) (st : CombineState) :
    Option Arg → Except PyErr CombineState
  | none => .ok st
  | some new =>
    let parse := optionParse new.option
    if parse.combine ∈ allowed then
      match st.indices new.option with
      | some oldIndex =>
        match st.results[oldIndex]? with
        | some (some old) =>
          match parse.combine.apply old.val new.val with
          | .ok v =>
            let results := (st.results ++ [some (Arg.mk new.option v)]).set oldIndex none
            .ok { indices := fun o => if o = new.option then some (results.length - 1) else st.indices o,
                  results := results }
          | .error e => .error e
        | some none => .error .assertionError
        | none => .error .indexError
      | none =>
        let results := st.results ++ [some new]
        .ok { indices := fun o => if o = new.option then some (results.length - 1) else st.indices o,
                  results := results }
    else
      let results := st.results ++ [some new]
      .ok { indices := fun o => if o = new.option then some (results.length - 1) else st.indices o,
                  results := results }

/-- `Config._combine`, `edulint/config/config.py:86-108`. -/
def combineArgs (allowed : List Combine) (args : List (Option Arg)) :
    Except PyErr (List (Option Arg)) :=
  match args.foldlM (combineStep allowed) ⟨fun _ => none, []⟩ with
  | .ok st => .ok st.results
  | .error e => .error e

/-- `apply_option_set` inside `Config._translate`, `edulint/config/config.py:54-59`. -/
def optionSetArgs : OptionSet → Except PyErr (List Arg)
  | [] => .ok []
  | (linter, vals) :: rest =>
    match linter.toOption with
    | .error e => .error e
    | .ok o =>
      match optionSetArgs rest with
      | .error e => .error e
      | .ok more =>
        .ok (vals.map (fun v => Arg.mk o ((optionParse o).type.convert (some v))) ++ more)

/-- The groups iterated by `for group in arg.val`, `edulint/config/config.py:67-68`: a list, or the
characters of a string; iterating any other value raises `TypeError`. -/
def iterVal : Val → Except PyErr (List Str)
  | .list l => .ok l
  | .str s => .ok (s.map fun c => [c])
  | _ => .error .typeError

/-- The expansion of each group of a list, unknown groups are skipped (with a warning that is not
modelled), `edulint/config/config.py:68-78`. -/
def groupsArgs (sets : OptionSets) : List Str → Except PyErr (List Arg)
  | [] => .ok []
  | g :: gs =>
    match Dict.get? sets g with
    | none => groupsArgs sets gs
    | some os =>
      match optionSetArgs os with
      | .error e => .error e
      | .ok here =>
        match groupsArgs sets gs with
        | .error e => .error e
        | .ok more => .ok (here ++ more)

/-- The arguments appended after one argument, `edulint/config/config.py:67-82`. -/
def expansionOf (sets : OptionSets) (a : Arg) : Except PyErr (List Arg) :=
  let fromGroups : Except PyErr (List Arg) :=
    if a.option = .setGroups then
      match iterVal a.val with
      | .error e => .error e
      | .ok gs => groupsArgs sets gs
    else .ok []
  match fromGroups with
  | .error e => .error e
  | .ok here =>
    match Dict.get? sets a.option.toName with
    | none => .ok here
    | some os =>
      match optionSetArgs os with
      | .error e => .error e
      | .ok more => .ok (here ++ more)

/-- `Config._translate`, `edulint/config/config.py:48-84`. -/
def translateArgs (sets : OptionSets) : List (Option Arg) → Except PyErr (List (Option Arg))
  | [] => .ok []
  | none :: rest => translateArgs sets rest
  | some a :: rest =>
    match expansionOf sets a with
    | .error e => .error e
    | .ok ex =>
      match translateArgs sets rest with
      | .error e => .error e
      | .ok more => .ok (some a :: ex.map some ++ more)

/-- `extract` inside `add_enabled`, `edulint/config/utils.py:32-36`. -/
def extractEnabled (enabler : Str) (val linterOption : Str) (en : Dict Str Str) : Dict Str Str :=
  if startsWith val linterOption then
    (splitOn ',' (val.drop linterOption.length)).foldl (fun acc s => Dict.set acc s enabler) en
  else en

/-- `add_enabled`, `edulint/config/utils.py:31-44`. -/
def addEnabled (enabler : Str) (en : Dict Str Str) (o : Opt) (val : Str) : Dict Str Str :=
  match o with
  | .pylint => extractEnabled enabler val "--enable=".toList en
  | .flake8 =>
    extractEnabled enabler val "--extend-select=".toList
      (extractEnabled enabler val "--select=".toList en)
  | .ignoreInfileConfigFor => Dict.set en "EDL001".toList enabler
  | _ => en

/-- The loop filling `self.enablers`, `edulint/config/config.py:122-130`. -/
def enablersOf (enabler : Option Str) (args : List (Option Arg)) : Dict Str Str :=
  match enabler with
  | none => []
  | some e =>
    args.foldl (fun acc a =>
      match a with
      | none => acc
      | some a =>
        match a.val with
        | .list vs => vs.foldl (fun acc v => addEnabled e acc a.option v) acc
        | .str s => addEnabled e acc a.option s
        | _ => acc) []

/-- `Config.__init__`, `edulint/config/config.py:110-130`. -/
def mkConfig (enabler : Option Str) (raw : List RawArg) : Except PyErr Config :=
  match combineArgs [.replace] (raw.map fun a => some (convertArg a)) with
  | .error e => .error e
  | .ok c => .ok ⟨c, enablersOf enabler c⟩

/-- `Config.combine`, `edulint/config/config.py:132-138` (both sides use the same option table, so
the assertion holds). -/
def Config.combine (lt rt : Config) : Except PyErr Config :=
  match combineArgs [.replace] (lt.config ++ rt.config) with
  | .error e => .error e
  | .ok c => .ok ⟨c, Dict.merge lt.enablers rt.enablers⟩

/-- Last argument for an option in a list of arguments (the `reversed` loop of
`Config.get_last_value`, `edulint/config/config.py:145-147`). -/
def lastFor (o : Opt) (args : List (Option Arg)) : Option Val :=
  match args.reverse.find? (fun a => match a with
    | some a => decide (a.option = o)
    | none => false) with
  | some (some a) => some a.val
  | _ => none

/-- `Config.get_last_value`, `edulint/config/config.py:143-148`. -/
def Config.getLastValue (c : Config) (o : Opt) (useDefault : Bool) : Except PyErr Val :=
  if (optionParse o).combine = .replace then
    match lastFor o c.config with
    | some v => .ok v
    | none => .ok (if useDefault then (optionParse o).default else .none)
  else .error .assertionError

/-- The literals of `Config._resolve_enable_disable_all`, `edulint/config/config.py:160-168`. -/
def enableNoop : Str := "--enable=noop".toList
@[inherit_doc enableNoop] def disableAll : Str := "--disable=all".toList
@[inherit_doc enableNoop] def enableAll : Str := "--enable=all".toList
@[inherit_doc enableNoop] def enablePrefix : Str := "--enable".toList
@[inherit_doc enableNoop] def disablePrefix : Str := "--disable".toList

/-- Loop body of `Config._resolve_enable_disable_all` over the reversed arguments,
`edulint/config/config.py:158-172`; the accumulator is the result in final order (the code
appends and reverses at the end). -/
def resolveGo : List Str → (allSet enable : Bool) → List Str → List Str
  | [], _, _, acc => acc
  | arg :: rest, allSet, enable, acc =>
    let arg := lower arg
    if arg = enableNoop then
      resolveGo rest allSet enable (arg :: acc)
    else if arg = disableAll ∨ arg = enableAll then
      if allSet then resolveGo rest allSet enable acc
      else resolveGo rest true (arg = enableAll) (arg :: acc)
    else if allSet ∧ ((startsWith arg disablePrefix ∧ enable)
        ∨ (startsWith arg enablePrefix ∧ ¬ enable)) then
      resolveGo rest allSet enable acc
    else resolveGo rest allSet enable (arg :: acc)

/-- `Config._resolve_enable_disable_all`, `edulint/config/config.py:154-175`. -/
def resolveEnableDisableAll (args : List Str) : List Str :=
  resolveGo args.reverse false false []

/-- `ImmutableConfig`, `edulint/config/config.py:208-230`. -/
structure ImmutableConfig where
  config : List Arg
  enablers : Dict Str Str
  deriving DecidableEq, Repr

/-- `ImmutableConfig.__getitem__`, `edulint/config/config.py:223-224`. -/
def ImmutableConfig.getItem (ic : ImmutableConfig) (o : Opt) : Except PyErr Val :=
  match ic.config[o.toNat]? with
  | some a => .ok a.val
  | none => .error .indexError

/-- Loop filling `ordered_args`, `edulint/config/config.py:184-189`. `reversed` of a value that is
not a list (or string) raises `TypeError`; the option's values always are lists. -/
def fillOrdered : List (Option Arg) → List Arg → Except PyErr (List Arg)
  | [], acc => .ok acc
  | none :: rest, acc => fillOrdered rest acc
  | some a :: rest, acc =>
    if a.option = .pylint then
      match a.val with
      | .list l =>
        fillOrdered rest (acc.set a.option.toNat ⟨.pylint, .list (resolveEnableDisableAll l)⟩)
      | _ => .error .typeError
    else fillOrdered rest (acc.set a.option.toNat a)

/-- `enablers_from_option_sets`, `edulint/config/config.py:191-195`. -/
def enablersOfSets : OptionSets → Dict Str Str → Except PyErr (Dict Str Str)
  | [], acc => .ok acc
  | (name, os) :: rest, acc =>
    let rec go : OptionSet → Dict Str Str → Except PyErr (Dict Str Str)
      | [], acc => .ok acc
      | (linter, vals) :: more, acc =>
        match vals, linter.toOption with
        | [], _ => go more acc
        | _, .error e => .error e
        | vals, .ok o => go more (vals.foldl (fun acc v => addEnabled name acc o v) acc)
    match go os acc with
    | .error e => .error e
    | .ok acc => enablersOfSets rest acc

/-- The tuple of immutable arguments, `edulint/config/config.py:198`. -/
def readOrdered (ordered : List Arg) : List Opt → Except PyErr (List Arg)
  | [] => .ok []
  | o :: os =>
    match ordered[o.toNat]? with
    | none => .error .indexError
    | some a =>
      match readOrdered ordered os with
      | .error e => .error e
      | .ok more => .ok (⟨o, a.val⟩ :: more)

/-- `Config.to_immutable`, `edulint/config/config.py:177-200`. -/
def Config.toImmutable (c : Config) (sets : OptionSets) : Except PyErr ImmutableConfig :=
  match translateArgs sets c.config with
  | .error e => .error e
  | .ok translated =>
    match combineArgs [.replace, .extend] translated with
    | .error e => .error e
    | .ok combined =>
      match fillOrdered combined (Opt.all.map fun o => ⟨o, (optionParse o).default⟩) with
      | .error e => .error e
      | .ok ordered =>
        match enablersOfSets sets [] with
        | .error e => .error e
        | .ok en =>
          match readOrdered ordered Opt.all with
          | .error e => .error e
          | .ok config => .ok ⟨config, Dict.merge en c.enablers⟩

/-- The configuration of a chain of configuration files, base first: the recursion of
`parse_config_file` (`edulint/config/config.py:370-390,424-430`), which starts from the empty
configuration (`_get_default_config`, `edulint/config/config.py:470-471`) and combines each file's
arguments with those of its base. A layer is the enabler's name and the file's arguments. -/
def chainConfig (files : List (Str × List RawArg)) : Except PyErr Config :=
  match mkConfig none [] with
  | .error e => .error e
  | .ok start =>
    files.foldlM (fun base f =>
      match mkConfig (some f.1) f.2 with
      | .error e => .error e
      | .ok this => Config.combine base this) start

/-- The effective configuration of one linted file when in-file configuration is not ignored:
`get_config_many`, `edulint/config/config.py:567,585,587`, with the configurations built by
`parse_cmd_config` (`:309-311`, enabler "cmd") and `parse_infile_config` (`:351-364`, enabler "in-file"). -/
def layeredConfig (files : List (Str × List RawArg)) (infile cmd : List RawArg)
    (sets : OptionSets) : Except PyErr ImmutableConfig :=
  match chainConfig files, mkConfig (some "in-file".toList) infile, mkConfig (some "cmd".toList) cmd with
  | .error e, _, _ => .error e
  | _, .error e, _ => .error e
  | _, _, .error e => .error e
  | .ok file, .ok inf, .ok cmd =>
    match Config.combine inf cmd with
    | .error e => .error e
    | .ok combined =>
      match Config.combine file combined with
      | .error e => .error e
      | .ok c => c.toImmutable sets

end Verif
