/-!
Python strings as lists of characters, and the few string functions the code uses.

Simplification, used everywhere: `str.lower()` is modelled on ASCII letters only (`Char.toLower`);
all names compared in lower case by the code are ASCII.
-/

namespace Verif

/-- A Python `str`. -/
abbrev Str := List Char

/-- `str.lower()` (ASCII letters). -/
def lower (s : Str) : Str := s.map Char.toLower

theorem toLower_toLower (c : Char) : c.toLower.toLower = c.toLower := by
  unfold Char.toLower
  grind

theorem lower_lower (s : Str) : lower (lower s) = lower s := by
  simp [lower, toLower_toLower]

/-- `s.startswith(p)`. -/
def startsWith (s p : Str) : Bool := p.isPrefixOf s

/-- `s.split(c)` for a one-character separator: never empty. -/
def splitOn (c : Char) : Str → List Str
  | [] => [[]]
  | x :: xs =>
    if x = c then [] :: splitOn c xs
    else match splitOn c xs with
      | [] => [[x]]
      | w :: ws => (x :: w) :: ws

/-- `sep.join(parts)`. -/
def joinWith (sep : Str) : List Str → Str
  | [] => []
  | [w] => w
  | w :: ws => w ++ sep ++ joinWith sep ws

/-- `arg.split("=", 1)` for a string that contains the separator: the part before the first
occurrence and the part after it; `none` if the separator does not occur. -/
def splitOnce (c : Char) : Str → Option (Str × Str)
  | [] => none
  | x :: xs =>
    if x = c then some ([], xs)
    else match splitOnce c xs with
      | none => none
      | some (a, b) => some (x :: a, b)

/-- `s.replace("_", "-")` and other single character replacements. -/
def replaceChar (a b : Char) (s : Str) : Str := s.map fun c => if c = a then b else c

/-- Python exceptions that the modelled code can raise (as values). -/
inductive PyErr where
  | assertionError
  | typeError
  | attributeError
  | valueError
  | keyError
  | indexError
  | zeroDivisionError
  | overflowError
  | recursionError
  | fileNotFound
  | unicodeError
  | memoryError
  deriving DecidableEq, Repr

deriving instance DecidableEq for Except

end Verif
