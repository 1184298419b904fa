import Verif.Base.Str

/-!
The path functions of the Python standard library used by `edulint/linting/linting.py` (POSIX flavour):
`os.path.normpath`, `os.path.abspath`, `os.path.relpath`, `pathlib.Path` with its equality and `parents`.
They are library code, so there are no lines of /repo to cite; each definition names the function.
-/

namespace Verif

/-- `pathlib.PurePosixPath`: the root (number of leading slashes, 0 for a relative path) and the parts. -/
structure PPath where
  root : Nat
  parts : List Str
  deriving DecidableEq, Repr

/-- Number of slashes that make up the root: exactly two leading slashes are kept, more count as one. -/
def rootOf : Str → Nat
  | '/' :: '/' :: '/' :: _ => 1
  | '/' :: '/' :: _ => 2
  | '/' :: _ => 1
  | _ => 0

/-- The components of a path without empty ones and `.`. -/
def pathParts (s : Str) : List Str := (splitOn '/' s).filter fun c => c ≠ [] ∧ c ≠ ['.']

/-- `Path(s)`. -/
def PPath.parse (s : Str) : PPath := ⟨rootOf s, pathParts s⟩

/-- `fd in path.parents`: a proper prefix with the same root. -/
def PPath.isParentOf (fd path : PPath) : Bool :=
  fd.root = path.root && fd.parts.isPrefixOf path.parts && decide (fd.parts ≠ path.parts)

/-- `os.path.isabs`. -/
def hasRoot (s : Str) : Bool := rootOf s ≠ 0

/-- The loop of `os.path.normpath` over the components (`acc` is `new_comps`, reversed). -/
def normComps (rooted : Bool) : List Str → List Str → List Str
  | acc, [] => acc.reverse
  | acc, c :: cs =>
    if c = [] ∨ c = ['.'] then normComps rooted acc cs
    else if c ≠ ['.', '.'] then normComps rooted (c :: acc) cs
    else match acc with
      | [] => if rooted then normComps rooted [] cs else normComps rooted [c] cs
      | a :: acc' =>
        if a = ['.', '.'] then normComps rooted (c :: acc) cs else normComps rooted acc' cs

/-- How `os.path.normpath` and `str(Path)` write a path down. -/
def showPath (root : Nat) (comps : List Str) : Str :=
  match List.replicate root '/' ++ joinWith ['/'] comps with
  | [] => ['.']
  | s => s

/-- `os.path.normpath`. -/
def normPath (s : Str) : Str := showPath (rootOf s) (normComps (hasRoot s) [] (splitOn '/' s))

/-- The state of the process and of the file system that path functions depend on. -/
structure FsEnv where
  /-- Components of the current directory. -/
  cwd : List Str
  /-- `Path.resolve` on the components of an absolute path. -/
  resolve : List Str → List Str

/-- Components of `os.path.abspath(s)`. -/
def absComps (fs : FsEnv) (s : Str) : List Str :=
  if hasRoot s then normComps true [] (splitOn '/' s)
  else normComps true [] (fs.cwd ++ splitOn '/' s)

/-- Length of the longest common prefix (`os.path.commonprefix` of two lists). -/
def commonLen : List Str → List Str → Nat
  | a :: as, b :: bs => if a = b then commonLen as bs + 1 else 0
  | _, _ => 0

/-- Components of the path from one absolute directory to another path, `os.path.relpath`. -/
def relComps (start path : List Str) : List Str :=
  List.replicate (start.length - commonLen start path) ['.', '.'] ++ path.drop (commonLen start path)

/-- `os.path.relpath(s)`; the empty string is refused. -/
def relPath (fs : FsEnv) (s : Str) : Except PyErr Str :=
  if s = [] then .error .valueError
  else .ok (showPath 0 (relComps fs.cwd (absComps fs s)))

/-- `get_proper_path`, `edulint/linting/linting.py:24-25`. -/
def properPath (fs : FsEnv) (s : Str) : Except PyErr Str :=
  if hasRoot s then .ok (normPath s) else relPath fs s

end Verif
