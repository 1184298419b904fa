import Verif.Model.ConfigMany

/-!
Paths of the entries of directories.
-/

namespace Verif

/-- The path of an entry of a directory: a slash is between the two, unless the path of the directory is empty or ends with one. -/
inductive EntryPath : Str → Str → Str → Prop where
  | none (name : Str) : EntryPath [] name name
  | slash (path name : Str) : EntryPath (path ++ ['/']) name (path ++ '/' :: name)
  | plain (path : Str) (c : Char) (name : Str) (h : c ≠ '/') : EntryPath (path ++ [c]) name (path ++ c :: '/' :: name)

theorem joinPath_iff {path name p : Str} : EntryPath path name p ↔ p = joinPath path name := by
  constructor
  · intro h
    cases h with
    | none => simp [joinPath]
    | slash path => simp [joinPath]
    | plain path c _ h => simp [joinPath, h]
  · rintro rfl
    rcases List.eq_nil_or_concat path with rfl | ⟨q, c, rfl⟩
    · simpa [joinPath] using EntryPath.none name
    · by_cases h : c = '/'
      · subst h
        simpa [joinPath] using EntryPath.slash q name
      · simpa [joinPath, h] using EntryPath.plain q c name h

example : joinPath "a".toList "b.py".toList = "a/b.py".toList ∧ joinPath "a/".toList "b.py".toList = "a/b.py".toList ∧
    joinPath [] "b.py".toList = "b.py".toList := by decide +kernel

end Verif
