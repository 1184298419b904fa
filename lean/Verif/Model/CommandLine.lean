import Verif.Model.Linting

/-!
The command line: `setup_argparse` and `main`, `edulint/edulint.py:57-117,289-307`, and as much of Python's `argparse` (3.11) as the three parsers need.

Simplifications: what is given before the name of the command is not modelled (`mainStatus` says 2 for it, `-h` alone is 0). For `-h` with further characters in the same argument the model says usage; some versions of Python show the help. `\d` is an ASCII digit, and no number is followed by a line break. Newer versions of Python look for ambiguous options only when they get to them; here, as in 3.11, they are found before anything is done.
-/

namespace Verif.CommandLine

/-- The options of the parsers. -/
inductive Opt where
  | help
  | json
  | noVersion
  | noExplanations
  | option
  deriving DecidableEq, Repr

/-- The commands, `edulint/edulint.py:81-115`. -/
inductive Command where
  | check
  | explain
  | version
  deriving DecidableEq, Repr

/-- The options that the commands share, `edulint/edulint.py:60-76`; `-h` is added by `argparse`. -/
def sharedNames : List (Str × Opt) :=
  [("-h".toList, .help), ("--help".toList, .help), ("--json".toList, .json), ("--disable-version-check".toList, .noVersion),
   ("--disable-explanations-update".toList, .noExplanations)]

/-- The options of a command, `edulint/edulint.py:81-95,103-115` -/
def Command.names : Command → List (Str × Opt)
  | .check => sharedNames ++ [("-o".toList, .option), ("--option".toList, .option)]
  | .explain => sharedNames
  | .version => sharedNames

/-- Whether the command has the argument with `nargs="+"`, `edulint/edulint.py:96-101,106-111`. -/
def Command.takesArgs : Command → Bool
  | .check => true
  | .explain => true
  | .version => false

/-- What an argument is taken to be: an argument, `--`, an option with the value in the same argument if there is one, or something that looks like an option. -/
inductive Tok where
  | arg (s : Str)
  | dashes
  | opt (o : Opt) (value : Option Str)
  | unknown
  deriving DecidableEq, Repr

/-- `_negative_number_matcher` of `argparse` -/
def isNumber : Str → Bool
  | '-' :: s =>
    (s != [] && s.all Char.isDigit) ||
      match splitOnce '.' s with
      | none => false
      | some (a, b) => a.all Char.isDigit && b != [] && b.all Char.isDigit
  | _ => false

/-- An option with its value after `=`, if it is written out (`_parse_optional` of `argparse`) -/
def known (names : List (Str × Opt)) (s : Str) : Option Tok :=
  match splitOnce '=' s with
  | none => none
  | some (n, v) => (names.lookup n).map fun o => .opt o (some v)

/-- The options that an argument may mean, `_get_option_tuples` of `argparse`: those that it abbreviates if it begins with `--`, else the one with one letter, followed by its value. -/
def candidates (names : List (Str × Opt)) (s : Str) : List Tok :=
  if startsWith s "--".toList then
    match splitOnce '=' s with
    | none => (names.filter fun n => startsWith n.1 s).map fun n => .opt n.2 none
    | some (p, v) => (names.filter fun n => startsWith n.1 p).map fun n => .opt n.2 (some v)
  else
    names.filterMap fun n =>
      if n.1 = s.take 2 then some (.opt n.2 (some (s.drop 2)))
      else if startsWith n.1 s then some (.opt n.2 none) else none

/-- `_parse_optional` of `argparse`; `none` if the option is ambiguous. -/
def classify (names : List (Str × Opt)) (s : Str) : Option Tok :=
  if s.head? ≠ some '-' then some (.arg s)
  else
    match names.lookup s with
    | some o => some (.opt o none)
    | none =>
      if s.length = 1 then some (.arg s)
      else
        match known names s with
        | some t => some t
        | none =>
          match candidates names s with
          | [] => if isNumber s || s.contains ' ' then some (.arg s) else some .unknown
          | [t] => some t
          | _ => none

/-- The first loop of `_parse_known_args` of `argparse`: all that follows `--` are arguments. -/
def tokens (names : List (Str × Opt)) : List Str → Option (List Tok)
  | [] => some []
  | s :: ss =>
    if s = "--".toList then some (.dashes :: ss.map .arg)
    else
      match classify names s, tokens names ss with
      | some t, some ts => some (t :: ts)
      | _, _ => none

/-- The values that are set; `args` are `files_or_dirs` or `message_ids`. -/
structure Parsed where
  json : Bool := false
  noVersion : Bool := false
  noExplanations : Bool := false
  options : List Str := []
  args : List Str := []
  deriving DecidableEq, Repr

/-- Whether the arguments with `nargs="+"` are still to come, are being read, or have been read. -/
inductive Phase where
  | before
  | inside
  | after
  deriving DecidableEq, Repr

/-- When an option is read -/
def Phase.leave : Phase → Phase
  | .before => .before
  | _ => .after

/-- How the parsing ends. -/
inductive Result where
  | help
  | usage
  | run (p : Parsed)
  deriving DecidableEq, Repr

/-- The second loop of `_parse_known_args` of `argparse`: as many arguments as follow each other are taken for the one with `nargs="+"`, those after a later option are not recognized (`extra`). -/
def parseToks : List Tok → Phase → Bool → Parsed → Result
  | [], ph, extra, p => if extra || ph == .before then .usage else .run p
  | .arg s :: ts, ph, extra, p =>
    match ph with
    | .after => parseToks ts .after true p
    | _ => parseToks ts .inside extra { p with args := p.args ++ [s] }
  | .dashes :: ts, ph, extra, p =>
    match ph with
    | .after => parseToks ts .after true p
    | ph => parseToks ts ph extra p
  | .unknown :: ts, ph, _, p => parseToks ts ph.leave true p
  | .opt .option (some v) :: ts, ph, extra, p => parseToks ts ph.leave extra { p with options := p.options ++ [v] }
  | .opt _ (some _) :: _, _, _, _ => .usage
  | .opt .help none :: _, _, _, _ => .help
  | .opt .json none :: ts, ph, extra, p => parseToks ts ph.leave extra { p with json := true }
  | .opt .noVersion none :: ts, ph, extra, p => parseToks ts ph.leave extra { p with noVersion := true }
  | .opt .noExplanations none :: ts, ph, extra, p => parseToks ts ph.leave extra { p with noExplanations := true }
  | .opt .option none :: .arg v :: ts, ph, extra, p => parseToks ts ph.leave extra { p with options := p.options ++ [v] }
  | .opt .option none :: _, _, _, _ => .usage

/-- The parser of a command on the arguments after its name. -/
def parseArgs (c : Command) (args : List Str) : Result :=
  match tokens c.names args with
  | none => .usage
  | some ts => parseToks ts (if c.takesArgs then .before else .after) false {}

/-- `choices` of the parser of the program, `edulint/edulint.py:78-115` -/
def commandOf (s : Str) : Option Command :=
  if s = "check".toList then some .check
  else if s = "explain".toList then some .explain
  else if s = "version".toList then some .version
  else none

/-- The exit status of the program, `main`, `edulint/edulint.py:289-307`; `lies` tells what lies at a path. `argparse` ends with 0 after showing the help and 2 after showing the usage. The other commands end with 0, also if they fail with an exception, as it is only logged. -/
def mainStatus (env : Env) (lenv : LintEnv) (fuel : Nat) (lies : Str → Option FTree) : List Str → Nat
  | [] => 2
  | s :: args =>
    match commandOf s with
    | none => 2
    | some c =>
      match parseArgs c args with
      | .help => 0
      | .usage => 2
      | .run p =>
        match c with
        | .check => exitStatus (checkReturn (checkCode env lenv fuel (p.args.map fun s => ⟨s, lies s⟩) p.options))
        | _ => 0

end Verif.CommandLine
