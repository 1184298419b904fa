import Verif.Base.Dict
import Verif.Model.ConfigParse

/-!
How the explanations that are distributed with the package are compiled: `edulint/prepare_explanations`.

Reading and writing of JSON and TOML files is taken to keep the data; the ids in a table differ. Whether pages of the documentation exist is not asked (`skip_online_check` is true in all calls).
-/

namespace Verif.CompileExpls

/-- A table of texts for each message, as in the TOML files. -/
abbrev Table := Dict Str (Dict Str Str)

/-- `answer[check_id][check_field_name] = check_field_value`, `edulint/prepare_explanations/__init__.py:36`, for a `defaultdict` -/
def setField (answer : Table) (id field value : Str) : Table :=
  Dict.set answer id (Dict.set ((Dict.get? answer id).getD []) field value)

/-- The loop over the fields of a message, `edulint/prepare_explanations/__init__.py:33-36` -/
def addFields (answer : Table) (id : Str) : Dict Str Str → Table
  | [] => answer
  | (field, value) :: rest => addFields (if value = [] then answer else setField answer id field value) id rest

/-- The loop over the messages of a source, `edulint/prepare_explanations/__init__.py:32-36` -/
def addSource (answer : Table) : Table → Table
  | [] => answer
  | (id, fields) :: rest => addSource (addFields answer id fields) rest

/-- `combine_sources`, `edulint/prepare_explanations/__init__.py:24-39` -/
def combine (pylint thonny manual : Table) : Table := [pylint, thonny, manual].foldl addSource []

/-- `replace_prefixes`, `edulint/prepare_explanations/pylint_data/thonny_process_slim.py:7-14` -/
def prefixes : List (Str × Str) :=
  [("Used when an ".toList, "It looks like the ".toList), ("Used when a ".toList, "It looks like the ".toList), ("Used when ".toList, "It looks like ".toList),
   ("Emitted when an ".toList, "It looks like the ".toList), ("Emitted when a ".toList, "It looks like the ".toList), ("Emitted when ".toList, "It looks like ".toList)]

/-- The loop of `make_explanation_more_friedly`, `edulint/prepare_explanations/pylint_data/thonny_process_slim.py:16-21` -/
def replaceFirst (text : Str) : List (Str × Str) → Str
  | [] => text
  | (p, r) :: rest => if startsWith text p then r ++ text.drop p.length else replaceFirst text rest

/-- `make_explanation_more_friedly`, `edulint/prepare_explanations/pylint_data/thonny_process_slim.py:6-21` -/
def friendly (text : Str) : Str := replaceFirst text prefixes

/-- What is known about a message of Pylint: the keys that `edulint/prepare_explanations/pylint_data/extract_from_pylint.py:62-137` reads. -/
structure PylintMessage where
  id : Str
  name : Str
  description : Str
  goodCode : Str
  badCode : Str
  details : Str

/-- The loop of `convert_json_to_toml`, `edulint/prepare_explanations/pylint_data/extract_from_pylint.py:66-77`, for the messages of each level -/
def byId (levels : List (Str × List PylintMessage)) : Dict Str (Str × PylintMessage) :=
  (levels.flatMap fun l => l.2.map fun m => (l.1, m)).foldl (fun d m => Dict.set d m.2.id m) []

/-- `edulint/prepare_explanations/pylint_data/extract_from_pylint.py:84` -/
def placeholder : Str := "# This is a placeholder for correct code for this message.".toList

/-- `md_code_block_with_headline`, `edulint/prepare_explanations/pylint_data/extract_from_pylint.py:83-96` (a headline is given in all calls) -/
def codeBlock (code headline : Str) : Str :=
  if decide (placeholder <:+: code) then []
  else "\n**".toList ++ headline ++ "**\n".toList ++ ("\n```py\n".toList ++ code ++ "\n```\n".toList)

/-- `edulint/prepare_explanations/pylint_data/extract_from_pylint.py:100-102` -/
def nonViable : Str := "\"**Additional details:**\n\nYou can help us make the doc better `by contributing".toList

/-- `produce_doc_link_if_available`, `edulint/prepare_explanations/pylint_data/extract_from_pylint.py:99-113` -/
def docLink (level : Str) (m : PylintMessage) : Str :=
  if m.details = [] || startsWith m.details nonViable then []
  else "\n<a href=\"https://pylint.pycqa.org/en/latest/user_guide/messages/".toList ++ level ++ "/".toList ++ m.name ++
    ".html\">Additional information</a>".toList

/-- The examples of a message, `edulint/prepare_explanations/pylint_data/extract_from_pylint.py:123-129,133` -/
def examplesOf (level : Str) (m : PylintMessage) : Str :=
  ((if m.badCode = [] then [] else codeBlock m.badCode "Problematic code".toList) ++
    (if m.goodCode = [] then [] else codeBlock m.goodCode "How to fix it".toList) ++ docLink level m).dropWhile isSpace

/-- `convert_pylint_toml_to_edulint_toml`, `edulint/prepare_explanations/pylint_data/extract_from_pylint.py:116-137` -/
def fromPylint (levels : List (Str × List PylintMessage)) : Table :=
  (byId levels).map fun e => (e.1, [("why".toList, friendly e.2.2.description), ("examples".toList, examplesOf e.2.1 e.2.2)])

/-- `extract_msgs_from_thonny` and `convert_to_edulint`, `edulint/prepare_explanations/thonny_data/extract_from_edulint.py:16-49`, for the explanations (`tho_xpln`) of messages, if there are any -/
def fromThonny (checks : List (Str × Option Str)) : Table :=
  checks.filterMap fun c =>
    match c.2 with
    | none => none
    | some text => if text = [] then none else some (c.1, [("why".toList, text), ("examples".toList, [])])

/-- `main`, `edulint/prepare_explanations/__init__.py:42-45`: the file `explanations.toml` -/
def compiled (levels : List (Str × List PylintMessage)) (checks : List (Str × Option Str)) (manual : Table) : Table :=
  combine (fromPylint levels) (fromThonny checks) manual

end Verif.CompileExpls
