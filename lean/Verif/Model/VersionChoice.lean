import Verif.Model.Versions

/-!
Which versions of a package are chosen for tests: `edulint/versions/pypi_helper.py:27-35,47-75`, and the class of versions, `edulint/versions/utils.py`.
-/

namespace Verif.VersionChoice

section
variable {α : Type} (line : α → Nat × Nat) (le : α → α → Bool)

/-- `major_minor[…].append(version)`, `edulint/versions/pypi_helper.py:30`. The key is the text of both numbers with a dot in between, which tells them apart. -/
def addVersion (v : α) : Dict (Nat × Nat) (List α) → Dict (Nat × Nat) (List α)
  | [] => [(line v, [v])]
  | (k, vs) :: d => if k = line v then (k, vs ++ [v]) :: d else (k, vs) :: addVersion v d

/-- `edulint/versions/pypi_helper.py:28-30` -/
def byMinor (versions : List α) : Dict (Nat × Nat) (List α) := versions.foldl (fun d v => addVersion line v d) []

/-- `<=` of the keys `(x.major, x.minor)`, `edulint/versions/pypi_helper.py:34` -/
def lineLe (a b : α) : Bool := decide ((line a).1 < (line b).1) || (decide ((line a).1 = (line b).1) && decide ((line a).2 ≤ (line b).2))

/-- `_only_last_patch_of_each_minor`, `edulint/versions/pypi_helper.py:27-35`; `le` is `<=` of versions. No list is empty. -/
def onlyLastPatch (versions : List α) : List α :=
  ((byMinor line versions).filterMap fun g => (g.2.mergeSort fun a b => le b a).head?).mergeSort (lineLe line)

/-- `l[-n:]`, `edulint/versions/pypi_helper.py:62` -/
def lastN (n : Int) (l : List α) : List α := if 0 < n then l.drop (l.length - n.toNat) else l.drop (-n).toNat

/-- The versions that are printed, `edulint/versions/pypi_helper.py:59-62`, for those of `get_versions`. -/
def chosen (n : Int) (versions : List α) : List α := lastN n (onlyLastPatch line le versions)

end

/-- `__eq__` that `@dataclass` makes: the fields of the class are compared. -/
def dataclassEq {α : Type} (fields : List (α → Str)) (a b : α) : Bool := fields.all fun f => f a = f b

/-- `Version.__eq__`, `edulint/versions/utils.py:10-13`: the class has no fields of its own. -/
def versionEq (a b : Ver) : Bool := dataclassEq [] a b

/-- `is_not_full_release`, `edulint/versions/utils.py:15-16` -/
def isNotFullRelease (pre post dev : Bool) : Bool := !(pre || post || dev)

/-- An argument: lists cannot be hashed, tuples of texts can. -/
inductive Arg where
  | list (l : List Str)
  | tuple (l : List Str)

/-- All versions, or the exception for the first text that is none. -/
def parseAll (parse : Str → Option Ver) : List Str → Except PyErr (List Ver)
  | [] => .ok []
  | t :: ts =>
    match parse t, parseAll parse ts with
    | none, _ => .error .valueError
    | some _, .error e => .error e
    | some v, .ok vs => .ok (v :: vs)

/-- `get_available_versions`, `edulint/versions/utils.py:38-40`: `lru_cache` hashes the argument first. -/
def availableVersions (parse : Str → Option Ver) : Arg → Except PyErr (List Ver)
  | .list _ => .error .typeError
  | .tuple l => parseAll parse l

end Verif.VersionChoice
