import Verif.Base.Str
import Verif.Base.Dict

/-!
The check for a newer release: `edulint/versions/version_checker.py`, `edulint/versions/pypi_helper.py` and
`_update_check` of `edulint/edulint.py`.
-/

namespace Verif

/-- `PackageInfo`, `edulint/versions/version_checker.py:17-21`. -/
structure PackageInfo where
  version : Option Str := none
  lastStart : Int := 0
  deriving DecidableEq, Repr

/-- The file `versions.json`: absent, not readable as expected (a process was cut off while writing it), or the
information about the packages. -/
inductive InfoFile where
  | absent
  | corrupt
  | data (d : Dict Str PackageInfo)

/-- Reading the file, which creates an empty one if there is none: `_package_info_path`,
`_get_package_info_locally`, `edulint/versions/version_checker.py:41-53,73-78`. -/
def InfoFile.load : InfoFile → Option (Dict Str PackageInfo)
  | .absent => some []
  | .corrupt => none
  | .data d => some d

/-- The information about a package, `edulint/versions/version_checker.py:60,77`. -/
def infoOf (d : Dict Str PackageInfo) (pkg : Str) : PackageInfo := (Dict.get? d pkg).getD {}

/-- A parsed version: the numbers that versions are sorted by and the text. -/
structure Ver where
  major : Nat
  minor : Nat
  micro : Nat
  text : Str
  deriving DecidableEq, Repr

/-- `<` of the keys `(major, minor, micro)`, `edulint/versions/version_checker.py:89`. -/
def Ver.lt (a b : Ver) : Bool :=
  a.major < b.major || (a.major = b.major && (a.minor < b.minor || (a.minor = b.minor && a.micro < b.micro)))

/-- A release in the answer of the package index: its id and, for each of its builds, whether it is yanked. -/
structure Release where
  id : Str
  builds : List Bool

/-- `_fully_released_versions`, `edulint/versions/pypi_helper.py:10-24`; `parse` is `Version.parse`
(`edulint/versions/utils.py:30-35`). -/
def fullyReleased (parse : Str → Option Ver) : List Release → List Ver
  | [] => []
  | r :: rs =>
    match parse r.id with
    | none => fullyReleased parse rs
    | some v =>
      if r.builds ≠ [] ∧ ¬ r.builds.contains true then v :: fullyReleased parse rs else fullyReleased parse rs

/-- `get_versions`, `edulint/versions/pypi_helper.py:38-43`. -/
def getVersions (parse : Str → Option Ver) (pkg : Str) (releases : List Release) : List Ver :=
  let vs := fullyReleased parse releases
  if pkg = "pylint".toList then vs.filter fun v => v.major ≥ 3 else vs

/-- `sorted(versions, key = …)[-1]`, `edulint/versions/version_checker.py:89-90`: of the versions with the greatest
key the last one (sorting is stable). -/
def lastSorted : List Ver → Option Ver
  | [] => none
  | v :: vs =>
    match lastSorted vs with
    | none => some v
    | some w => if w.lt v then some v else some w

/-- Where a call is cut off or fails to write: before or while the start of the query is saved, before
the query, before or while the version is saved. -/
inductive VCut where
  | done
  | noSave
  | inSave
  | beforeQuery
  | noSaveVersion
  | inSaveVersion
  deriving DecidableEq, Repr

/-- One call of `get_latest_version`: the two times at which the clock is read, the answer of the package
index (`none` if the query fails), and where the call is cut off. `dies` tells whether the process
ends there, or an exception is raised. -/
structure VCall where
  now : Int
  start : Int
  answer : Option (List Release)
  cut : VCut := .done
  dies : Bool := false

/-- How a call ends: with a version or `None`, with an exception, or not at all. -/
inductive VResult where
  | returned (version : Option Str)
  | raised
  | died
  deriving DecidableEq, Repr

/-- What is observed of a call: how it ends, and the time of its query, if there is one. -/
structure VSeen where
  result : VResult
  query : Option Int
  deriving DecidableEq, Repr

/-- `_save_package_info_locally` in memory, `edulint/versions/version_checker.py:60-67`. -/
def saveStart (d : Dict Str PackageInfo) (pkg : Str) (start : Int) : Dict Str PackageInfo :=
  let info := infoOf d pkg
  Dict.set d pkg (if start ≠ 0 then { info with lastStart := start } else info)
@[inherit_doc saveStart]
def saveVersion (d : Dict Str PackageInfo) (pkg : Str) (version : Str) : Dict Str PackageInfo :=
  let info := infoOf d pkg
  Dict.set d pkg (if version ≠ [] then { info with version := some version } else info)

/-- The first part of `get_latest_version`, `edulint/versions/version_checker.py:82-84`: the file is read; `none` if
a query is needed. -/
def askFile (pkg : Str) (ttl : Int) (file : InfoFile) (now : Int) : Option VSeen :=
  match file.load with
  | none => some ⟨.raised, none⟩
  | some d =>
    if now < (infoOf d pkg).lastStart + ttl then some ⟨.returned (infoOf d pkg).version, none⟩ else none

/-- The end of a call that is cut off: an exception is caught, `edulint/versions/version_checker.py:93-94`. -/
def VCall.cutOff (c : VCall) : VResult := if c.dies then .died else .returned none

/-- The second part of `get_latest_version`, `edulint/versions/version_checker.py:86-94`: all exceptions are
caught. -/
def askIndex (parse : Str → Option Ver) (pkg : Str) (file : InfoFile) (c : VCall) : InfoFile × VSeen :=
  match file.load with
  | none => (file, ⟨.returned none, none⟩)
  | some d =>
    if c.cut = .noSave then (.data d, ⟨c.cutOff, none⟩)
    else if c.cut = .inSave then (.corrupt, ⟨c.cutOff, none⟩)
    else
      let d := saveStart d pkg c.start
      if c.cut = .beforeQuery then (.data d, ⟨c.cutOff, none⟩)
      else
        match c.answer with
        | none => (.data d, ⟨.returned none, some c.start⟩)
        | some releases =>
          match lastSorted (getVersions parse pkg releases) with
          | none => (.data d, ⟨.returned none, some c.start⟩)
          | some v =>
            if c.cut = .noSaveVersion then (.data d, ⟨c.cutOff, some c.start⟩)
            else if c.cut = .inSaveVersion then (.corrupt, ⟨c.cutOff, some c.start⟩)
            else (.data (saveVersion d pkg v.text), ⟨.returned (some v.text), some c.start⟩)

/-- `get_latest_version`, `edulint/versions/version_checker.py:80-94`, with no other process in between. (A file that
does not exist is created empty, which is left out here: an absent file is read as an empty one.) -/
def getLatestVersion (parse : Str → Option Ver) (pkg : Str) (ttl : Int) (file : InfoFile) (c : VCall) :
    InfoFile × VSeen :=
  match askFile pkg ttl file c.now with
  | some seen => (file, seen)
  | none => askIndex parse pkg file c

/-- A history of calls, with what is observed. -/
def versionTrace (parse : Str → Option Ver) (pkg : Str) (ttl : Int) (file : InfoFile) : List VCall → List (VCall × VSeen)
  | [] => []
  | c :: cs =>
    (c, (getLatestVersion parse pkg ttl file c).2) ::
      versionTrace parse pkg ttl (getLatestVersion parse pkg ttl file c).1 cs

/-- `is_update_waiting`, `edulint/versions/version_checker.py:96-104`, given the version that is running and how
the call of `get_latest_version` ends. -/
def isUpdateWaiting (running : Option Str) (result : VResult) : Bool :=
  match running, result with
  | none, _ => false
  | some v, .returned latest => some v ≠ latest
  | some _, _ => false

end Verif
