import Verif.Model.Versions

/-!
What is said about a newer release: `check_for_updates` and `_update_check`, `edulint/edulint.py:135-155`. The check runs in a thread of its own; an
exception in it ends the thread only.
-/

namespace Verif

/-- The file after a history of calls of `get_latest_version`. -/
def fileAfter (parse : Str → Option Ver) (pkg : Str) (ttl : Int) : InfoFile → List VCall → InfoFile
  | file, [] => file
  | file, c :: cs => fileAfter parse pkg ttl (getLatestVersion parse pkg ttl file c).1 cs

/-- What is named as the latest version, if it can be told, `edulint/edulint.py:148-155`. The exception for a file that cannot be read is a
`ValueError` and raised again; so is every other one. -/
def named : VResult → Option (Option Str)
  | .returned v => some v
  | .raised => none
  | .died => none

/-- `check_for_updates`, `edulint/edulint.py:135-155`, with the version that is running and the two calls of `get_latest_version`: the file afterwards,
and what is announced as the latest version. Nothing is asked if the running version is not known, `edulint/versions/version_checker.py:98-100`. -/
def checkForUpdates (parse : Str → Option Ver) (ttl : Int) (disabled : Bool) (running : Option Str) (file : InfoFile) (first second : VCall) :
    InfoFile × Option (Option Str) :=
  if disabled || running.isNone then (file, none)
  else if isUpdateWaiting running (getLatestVersion parse "edulint".toList ttl file first).2.result then
    ((getLatestVersion parse "edulint".toList ttl (getLatestVersion parse "edulint".toList ttl file first).1 second).1,
      named (getLatestVersion parse "edulint".toList ttl (getLatestVersion parse "edulint".toList ttl file first).1 second).2.result)
  else ((getLatestVersion parse "edulint".toList ttl file first).1, none)

end Verif
