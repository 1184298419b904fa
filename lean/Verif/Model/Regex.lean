import Verif.Base.Str

/-!
The fragment of Python's `re.match` that the code uses: a pattern is a sequence of atoms, matched from
the start of the text, with greedy repetition and backtracking. Library code, so no lines of /repo.
-/

namespace Verif

/-- One step of a pattern. -/
inductive Atom where
  /-- A single character of a class. -/
  | one (p : Char → Bool)
  /-- `p*`: greedy repetition of a character class. -/
  | star (p : Char → Bool)
  /-- `(?:a|b|…)`: the first alternative that lets the rest match. -/
  | alt (words : List Str)

/-- `.`: everything but a newline. -/
def dot (c : Char) : Bool := c ≠ '\n'

/-- `\s` (ASCII white space; Python adds further Unicode characters). -/
def rxSpace (c : Char) : Bool := c = ' ' || c = '\t' || c = '\n' || c = '\r' || c = '\x0b' || c = '\x0c'

/-- A literal text, one atom per character. -/
def lits (s : Str) : List Atom := s.map fun c => .one (· == c)

/-- A literal text under `re.IGNORECASE` (ASCII letters). -/
def litsI (s : Str) : List Atom := s.map fun c => .one fun d => d.toLower == c.toLower

/-- Greedy repetition: as many characters as possible such that the rest matches. -/
def starMatch (p : Char → Bool) (k : Str → Option (List Str)) : Str → Option (List Str)
  | [] => (k []).map ([] :: ·)
  | c :: s =>
    if p c then
      match starMatch p k s with
      | some (w :: ws) => some ((c :: w) :: ws)
      | _ => (k (c :: s)).map ([] :: ·)
    else (k (c :: s)).map ([] :: ·)

/-- Alternatives in order. -/
def altMatch (k : Str → Option (List Str)) (s : Str) : List Str → Option (List Str)
  | [] => none
  | w :: ws =>
    match if w.isPrefixOf s then (k (s.drop w.length)).map (w :: ·) else none with
    | some r => some r
    | none => altMatch k s ws

/-- `re.match`: the piece of the text that each atom matched, or `none`. -/
def matchSeq : List Atom → Str → Option (List Str)
  | [], _ => some []
  | .one _ :: _, [] => none
  | .one p :: as, c :: s => if p c then (matchSeq as s).map ([c] :: ·) else none
  | .star p :: as, s => starMatch p (matchSeq as) s
  | .alt ws :: as, s => altMatch (matchSeq as) s ws

end Verif
