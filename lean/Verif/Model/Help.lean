import Verif.Model.Options

/-!
The help text of the options: `format_options_help` of `edulint/edulint.py`.
-/

namespace Verif

/-- The loop of `extract_line`, `edulint/edulint.py:35-40`: the words that still fit on the line and the
words left; `cur` is the length of the line so far. (The code returns an index instead of the words left.) -/
def takeWords (maxLen cur : Int) : List Str → List Str × List Str
  | [] => ([], [])
  | w :: ws =>
    if cur + 1 + w.length > maxLen then ([], w :: ws)
    else
      let (line, rest) := takeWords maxLen (cur + 1 + w.length) ws
      (w :: line, rest)

theorem takeWords_rest_le (maxLen cur : Int) (ws : List Str) : (takeWords maxLen cur ws).2.length ≤ ws.length := by
  induction ws generalizing cur with
  | nil => simp [takeWords]
  | cons w ws ih =>
    simp only [takeWords]
    split
    · simp
    · have := ih (cur + 1 + w.length)
      simp only [List.length_cons]
      omega

/-- The loop over the lines of one option, `edulint/edulint.py:46-52`; `start` is what the next line starts
with (the name of the option first, then four spaces). `max_len` may be negative. -/
def helpLines (start : Str) : List Str → List Str
  | [] => []
  | w :: ws =>
    (start ++ joinWith [' '] (w :: (takeWords (80 - 25 - start.length) w.length ws).1)) ::
      helpLines "    ".toList (takeWords (80 - 25 - start.length) w.length ws).2
termination_by ws => ws.length
decreasing_by
  have := takeWords_rest_le (80 - 25 - start.length) w.length ws
  simp only [List.length_cons]
  omega

/-- `format_options_help`, `edulint/edulint.py:31-54`, for the names and descriptions of the options. -/
def formatOptionsHelp (options : List (Str × Str)) : Str :=
  joinWith ['\n'] (options.flatMap fun o => helpLines (o.1 ++ "  ".toList) (splitOn ' ' o.2)) ++ ['\n']

end Verif
