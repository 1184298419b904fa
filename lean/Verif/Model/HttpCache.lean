import Verif.Base.Str

/-!
`CachedHTTPGet` of `edulint/config/file_config.py`: downloaded configuration files are kept on disk.

A request runs to its end or is cut off at any point; between requests the disk keeps what was written.
Two addresses never share a file (`_convert_source_to_safe_filename`, `edulint/config/file_config.py:178-180`,
is a cryptographic hash), so files are indexed by address.
-/

namespace Verif

/-- The metadata file of an address: readable with its timestamp, or not readable as JSON. -/
inductive Meta where
  | stamp (time : Int)
  | unreadable
  deriving DecidableEq, Repr

/-- The two files of every address; `none` if there is no file. -/
structure CacheDisk where
  content : Str → Option Str
  stamp : Str → Option Meta

/-- The disk before the first request. -/
def CacheDisk.empty : CacheDisk := ⟨fun _ => none, fun _ => none⟩

/-- `_read_version_from_disk`, `edulint/config/file_config.py:212-229`. -/
def CacheDisk.read (d : CacheDisk) (url : Str) (maxAge now : Int) : Option Str :=
  match d.stamp url with
  | none => none
  | some .unreadable => none
  | some (.stamp t) => if t + maxAge ≤ now then none else d.content url

/-- How far writing the two files got: the content file may hold only a part of the content (opening it
empties it), the metadata may be missing, or may be cut off (then they are not JSON). An error while
writing, which the code logs, has the same effect on the disk as being cut off. -/
inductive Cut where
  | done
  | inContent (written : Nat)
  | beforeStamp
  | inStamp

/-- `_write_version_to_disk`, `edulint/config/file_config.py:194-210`. -/
def CacheDisk.write (d : CacheDisk) (url content : Str) (time : Int) (cut : Cut) : CacheDisk :=
  let set (c : Str) (m : Option Meta) : CacheDisk :=
    ⟨fun u => if u = url then some c else d.content u, fun u => if u = url then m else d.stamp u⟩
  match cut with
  | .inContent n => set (content.take n) (d.stamp url)
  | .beforeStamp => set content (d.stamp url)
  | .inStamp => set content (some .unreadable)
  | .done => set content (some (.stamp time))

/-- The answer of the server, or a failure of the request. -/
inductive Response where
  /-- Status 200 with the text of the answer. -/
  | ok (body : Str)
  /-- Another status. -/
  | status (code : Nat)
  /-- A `RequestException`. -/
  | failed

/-- One request: the address, the times at which the clock is read (`edulint/config/file_config.py:167-169`), what
the server would answer, and where writing is cut off. `dies` tells whether the process is cut off there
(rather than failing to write), so that it returns nothing. -/
structure Get where
  url : Str
  now : Int
  writeTime : Int
  retryTime : Int
  response : Response
  cut : Cut := .done
  dies : Bool := false

/-- What is observed of a request: the body returned, if any (otherwise an exception is raised or the process
died), and whether the server was asked. -/
structure Got where
  body : Option Str
  asked : Bool
  deriving DecidableEq, Repr

/-- The two ages, `edulint/config/file_config.py:130-131`. -/
def maxCacheTime : Int := 5 * 60
@[inherit_doc maxCacheTime] def maxCacheTimeOffline : Int := 500 * 24 * 60

/-- Reading with an empty content counted as nothing: `if cached_version`,
`edulint/config/file_config.py:138,161`. -/
def CacheDisk.cached (d : CacheDisk) (url : Str) (maxAge now : Int) : Option Str :=
  match d.read url maxAge now with
  | some (c :: cs) => some (c :: cs)
  | _ => none

/-- `http_get`, `edulint/config/file_config.py:126-165`. -/
def httpGet (d : CacheDisk) (g : Get) : CacheDisk × Got :=
  match d.cached g.url maxCacheTime g.now with
  | some body => (d, ⟨some body, false⟩)
  | none =>
    match g.response with
    | .ok body => (d.write g.url body g.writeTime g.cut, ⟨if g.dies then none else some body, true⟩)
    | _ => (d, ⟨d.cached g.url maxCacheTimeOffline g.retryTime, true⟩)

/-- A history of requests. -/
def history (d : CacheDisk) : List Get → CacheDisk × List Got
  | [] => (d, [])
  | g :: gs =>
    let (d', r) := httpGet d g
    let (d'', rs) := history d' gs
    (d'', r :: rs)

end Verif
