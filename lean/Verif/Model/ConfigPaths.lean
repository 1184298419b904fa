import Verif.Model.ConfigParse
import Verif.Model.Paths

/-!
Where configuration and language files are looked for, `edulint/config/file_config.py:39-122`, with the functions of `os.path` (POSIX flavour) that are used.
-/

namespace Verif

/-- `os.path.join(a, b)` -/
def osJoin (a b : Str) : Str :=
  if isAbs b then b else if a = [] ∨ a.getLast? = some '/' then a ++ b else a ++ '/' :: b

/-- `s.rstrip("/")` -/
def rstripSlash (s : Str) : Str := (s.reverse.dropWhile (· = '/')).reverse

/-- Up to and including the last slash. -/
def upToSlash (p : Str) : Str := (p.reverse.dropWhile (· ≠ '/')).reverse

/-- `os.path.dirname(p)` -/
def osDirname (p : Str) : Str := if (upToSlash p).all (· = '/') then upToSlash p else rstripSlash (upToSlash p)

/-- `os.path.abspath(p)` in the directory `cwd` -/
def osAbspath (cwd p : Str) : Str := normPath (if isAbs p then p else osJoin cwd p)

/-- `os.path.abspath(os.path.join(os.path.dirname(parent_filepath), filepath))`, `edulint/config/file_config.py:70` -/
def osAbsJoin (cwd file parent : Str) : Str := osAbspath cwd (osJoin (osDirname parent) file)

/-- What is on the disk and on the network. -/
structure Files where
  /-- `os.path.dirname(__file__)` -/
  package : Str
  /-- `Path(filepath).exists() and Path(filepath).is_file()` -/
  isFile : Str → Bool
  /-- reading raises an exception, for instance if it is not in UTF-8 -/
  read : Str → Except PyErr Str
  /-- `CachedHTTPGet.http_get`, `edulint/config/file_config.py:126-165` -/
  get : Str → Except PyErr Str

/-- The file of a packaged configuration, `edulint/config/file_config.py:95` -/
def packagedFile (fs : Files) (name : Str) : Str := osJoin (osJoin fs.package "files".toList) (name ++ ".toml".toList)

/-- `_load_local_config_file`, `edulint/config/file_config.py:99-112`, where paths are not restricted, as is set in `edulint/config/file_config.py:17` -/
def loadLocal (fs : Files) (path : Str) : Except PyErr Str := if fs.isFile path then fs.read path else .error .fileNotFound

/-- `_load_packaged_config_file`, `edulint/config/file_config.py:92-96` -/
def loadPackaged (fs : Files) (name : Str) : Except PyErr Str :=
  if name.all allowedLetter then loadLocal fs (packagedFile fs name) else .error .assertionError

/-- `_load_file_from_uri`, `edulint/config/file_config.py:73-85`, where addresses are not restricted, as is set in `edulint/config/file_config.py:18` -/
def loadUri (fs : Files) (s : Str) : Except PyErr Str :=
  match getConfigType s with
  | .remote => fs.get s
  | .local => loadLocal fs s
  | .packaged => loadPackaged fs s

/-- `load_toml_file`, `edulint/config/file_config.py:39-51`: `none` for a `TOMLDecodeError`. Other exceptions of the parser are not caught. -/
def loadToml {α : Type} (fs : Files) (parse : Str → Except PyErr (Option α)) (s : Str) : Except PyErr (Option α) :=
  match loadUri fs s with
  | .error _ => .ok none
  | .ok content => parse content

end Verif
