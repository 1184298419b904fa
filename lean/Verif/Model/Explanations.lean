import Verif.Base.Str
import Verif.Base.Dict
import Verif.Model.ConfigParse

/-!
Explanations of messages: `edulint/explanations.py` and the command `edulint explain` of `edulint/edulint.py`.
-/

namespace Verif

/-- One explanation; both parts are optional. -/
structure Expl where
  why : Option Str := none
  examples : Option Str := none
  deriving DecidableEq, Repr

/-- Parsed explanations by message id. -/
abbrev Expls := Dict Str Expl

/-- The directory for local data: the time of the last attempt to update (`explanations.dbm`) and the downloaded
explanations (`explanations_online.toml`), `edulint/explanations.py:20-21`. -/
structure ExplDisk where
  last : Option Int := none
  online : Option Str := none
  deriving DecidableEq, Repr

/-- The server's answer: `none` if the request fails. -/
structure ExplAnswer where
  status : Nat
  text : Str

/-- One run of the update, with the two times at which the clock is read and the answer. If the process ends
while the file is written, only `written` characters of it are. -/
structure ExplUpdate where
  now : Int
  start : Int
  answer : Option ExplAnswer
  written : Option Nat := none

/-- `_thread_update_explanations`, `edulint/explanations.py:64-81`: the directory afterwards and the time of the request,
if one is made. Updates at the same time are not modelled (the code gives no guarantee about them). -/
def updateExplanations (d : ExplDisk) (u : ExplUpdate) (ttl : Int := 600) : ExplDisk × Option Int :=
  if u.now < d.last.getD 0 + ttl then (d, none)
  else
    let d := { d with last := some u.start }
    match u.answer with
    | none => (d, some u.start)
    | some a =>
      if a.status ≠ 200 then (d, some u.start)
      else
        match u.written with
        | none => ({ d with online := some a.text }, some u.start)
        | some n => ({ d with online := some (a.text.take n) }, some u.start)

/-- A history of updates. -/
def explUpdates (d : ExplDisk) : List ExplUpdate → ExplDisk × List (Option Int)
  | [] => (d, [])
  | u :: us =>
    let r := updateExplanations d u
    let rs := explUpdates r.1 us
    (rs.1, r.2 :: rs.2)

/-- `_load_updated_explanations`, `edulint/explanations.py:42-50`; `parse` is `tomli.load` and `distributed` the text of the
file distributed with the package. -/
def loadUpdated (parse : Str → Option Expls) (distributed : Str) (d : ExplDisk) : Option Expls :=
  match d.online with
  | none => none
  | some _ => parse distributed

/-- `get_explanations`, `edulint/explanations.py:30-39` (the update it starts does not end before it reads). -/
def getExplanations (parse : Str → Option Expls) (distributed : Str) (d : ExplDisk) : Except PyErr Expls :=
  match loadUpdated parse distributed d with
  | some (e :: es) => .ok (e :: es)
  | _ =>
    match parse distributed with
    | none => .error .valueError
    | some e => .ok e

/-- The loop of `get_message_explanations`, `edulint/edulint.py:251-258`. -/
def collectExpls (all : Expls) (acc : Expls) : List Str → Expls
  | [] => acc
  | id :: ids =>
    match Dict.get? all id with
    | none => collectExpls all acc ids
    | some e => collectExpls all (Dict.set acc id e) ids

/-- `get_message_explanations`, `edulint/edulint.py:233-258`. -/
def messageExpls (all : Expls) (ids : Option (List Str)) : Expls :=
  collectExpls all [] (ids.getD (Dict.keys all))

/-- The printed lines of one part of an explanation, `edulint/edulint.py:278-284`. -/
def whyLines (e : Expl) : List Str :=
  let s := strip (e.why.getD [])
  if s ≠ [] then ["### Why is it a problem?".toList, s, []] else []
@[inherit_doc whyLines] def exampleLines (e : Expl) : List Str :=
  let s := strip (e.examples.getD [])
  if s ≠ [] then ["### How to solve it?".toList, s] else []

/-- The printing loop, `edulint/edulint.py:270-284`; every element is the argument of a `print`. -/
def explainLoop (many : Bool) : Bool → Expls → List Str
  | _, [] => []
  | first, (id, e) :: rest =>
    if many then
      (if first then [] else [['\n']]) ++ ["## ".toList ++ id] ++ whyLines e ++ exampleLines e ++
        explainLoop many false rest
    else whyLines e ++ exampleLines e ++ explainLoop many first rest

/-- `print_message_explanations` without `--json`, `edulint/edulint.py:261-286`. -/
def explain (all : Expls) (ids : List Str) : List Str :=
  let found := messageExpls all (if ids.any fun id => lower id = "all".toList then none else some ids)
  explainLoop (decide (found.length > 1)) true found

end Verif
