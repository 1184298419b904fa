import Verif.Model.ConfigPaths
import Verif.Lemmas.Paths

/-!
C127: what a reference to a configuration file refers to.
-/

namespace Verif

theorem splitOn_append_sep (c : Char) (b : Str) : ∀ a : Str, splitOn c (a ++ c :: b) = splitOn c a ++ splitOn c b
  | [] => by simp [splitOn]
  | x :: a => by
    have ih := splitOn_append_sep c b a
    simp only [List.cons_append, splitOn, ih]
    split
    · rfl
    · cases h : splitOn c a with
      | nil => exact absurd h (splitOn_ne_nil c a)
      | cons w ws => rfl

theorem normComps_filter (r : Bool) : ∀ cs acc : List Str, normComps r acc (cs.filter fun c => c ≠ []) = normComps r acc cs
  | [], acc => rfl
  | c :: cs, acc => by
    have ih := normComps_filter r cs
    by_cases h : c = []
    · subst h
      simp only [List.filter_cons, ne_eq, not_true_eq_false, decide_false, Bool.false_eq_true, if_false]
      rw [ih, normComps.eq_def r acc ([] :: cs)]
      simp
    · simp only [List.filter_cons, ne_eq, h, not_false_eq_true, decide_true, if_true, normComps, ih]

/-- The parts of a path that are not empty. -/
def nonEmpty (s : Str) : List Str := (splitOn '/' s).filter fun c => c ≠ []

theorem nonEmpty_slash (a b : Str) : nonEmpty (a ++ '/' :: b) = nonEmpty a ++ nonEmpty b := by
  rw [nonEmpty, splitOn_append_sep, List.filter_append]
  rfl

theorem nonEmpty_slashes (a b : Str) : ∀ k : Nat, nonEmpty (a ++ (List.replicate (k + 1) '/' ++ b)) = nonEmpty a ++ nonEmpty b
  | 0 => nonEmpty_slash a b
  | k + 1 => by
    have ih := nonEmpty_slashes [] b k
    rw [List.replicate_succ, List.cons_append, nonEmpty_slash]
    rw [List.nil_append] at ih
    rw [ih]
    rfl

theorem rootOf_append : ∀ (u v w : Str), (∃ x ∈ u, x ≠ '/') → rootOf (u ++ v) = rootOf (u ++ w)
  | [], _, _, h => by simp at h
  | x :: u, v, w, h => by
    by_cases hx : x = '/'
    · subst hx
      match u, h with
      | [], h => simp at h
      | y :: u, h =>
        by_cases hy : y = '/'
        · subst hy
          match u, h with
          | [], h => simp at h
          | z :: u, h =>
            by_cases hz : z = '/'
            · subst hz
              rfl
            · simp only [List.cons_append]
              rw [rootOf_two _ hz, rootOf_two _ hz]
        · have : ∀ s, rootOf ('/' :: y :: s) = 1 := by
            intro s
            unfold rootOf
            split <;> simp_all
          simp only [List.cons_append, this]
    · simp only [List.cons_append]
      rw [rootOf_other _ hx, rootOf_other _ hx]

theorem normPath_slashes (u b : Str) (hu : ∃ x ∈ u, x ≠ '/') (k : Nat) : normPath (u ++ (List.replicate (k + 1) '/' ++ b)) = normPath (u ++ '/' :: b) := by
  have h1 : rootOf (u ++ (List.replicate (k + 1) '/' ++ b)) = rootOf (u ++ '/' :: b) := rootOf_append u _ _ hu
  have h2 : ∀ r, normComps r [] (splitOn '/' (u ++ (List.replicate (k + 1) '/' ++ b))) = normComps r [] (splitOn '/' (u ++ '/' :: b)) := by
    intro r
    rw [← normComps_filter, ← normComps_filter r (splitOn '/' (u ++ '/' :: b))]
    have := nonEmpty_slashes u b k
    rw [← nonEmpty_slash] at this
    exact congrArg _ this
  rw [normPath, normPath, h1, h2, hasRoot, hasRoot, h1]

theorem dropWhile_append_of_all {p : Char → Bool} {a b : Str} (h : ∀ x ∈ a, p x = true) : (a ++ b).dropWhile p = b.dropWhile p := by
  induction a with
  | nil => rfl
  | cons x a ih =>
    rw [List.cons_append, List.dropWhile_cons_of_pos (h x List.mem_cons_self)]
    exact ih fun y hy => h y (List.mem_cons_of_mem _ hy)

theorem upToSlash_eq {h t : Str} (hh : h = [] ∨ h.getLast? = some '/') (ht : '/' ∉ t) : upToSlash (h ++ t) = h := by
  have h1 : (h ++ t).reverse.dropWhile (· ≠ '/') = h.reverse := by
    rw [List.reverse_append, dropWhile_append_of_all]
    · rcases hh with rfl | hh
      · rfl
      · obtain ⟨g, rfl⟩ := List.getLast?_eq_some_iff.mp hh
        simp
    · intro x hx
      simp only [List.mem_reverse] at hx
      simp only [ne_eq, decide_eq_true_eq]
      rintro rfl
      exact ht hx
  rw [upToSlash, h1, List.reverse_reverse]

/-- A text that is not only slashes is one that ends with something else, and slashes. -/
theorem rstripSlash_spec (s : Str) (h : s.all (· = '/') = false) :
    ∃ (u : Str) (k : Nat), rstripSlash s = u ∧ s = u ++ List.replicate k '/' ∧ (∃ x ∈ u, x ≠ '/') ∧ u ≠ [] ∧ u.getLast? ≠ some '/' := by
  have key : ∀ r : Str, r.all (· = '/') = false → ∃ (x : Char) (u : Str) (k : Nat), r.dropWhile (· = '/') = x :: u ∧ r = List.replicate k '/' ++ x :: u ∧ x ≠ '/' := by
    intro r hr
    induction r with
    | nil => simp at hr
    | cons y r ih =>
      by_cases hy : y = '/'
      · subst hy
        obtain ⟨x, u, k, h1, h2, h3⟩ := ih (by simpa using hr)
        refine ⟨x, u, k + 1, ?_, ?_, h3⟩
        · simpa using h1
        · rw [List.replicate_succ, List.cons_append, ← h2]
      · exact ⟨y, r, 0, by simp [hy], rfl, hy⟩
  obtain ⟨x, u, k, h1, h2, h3⟩ := key s.reverse (by rw [List.all_reverse]; exact h)
  refine ⟨(x :: u).reverse, k, by rw [rstripSlash, h1], ?_, ⟨x, by simp, h3⟩, by simp, ?_⟩
  · have := congrArg List.reverse h2
    rw [List.reverse_reverse, List.reverse_append, List.reverse_replicate] at this
    exact this
  · simp [h3]

theorem isAbs_append {u : Str} (hu : u ≠ []) (v : Str) : isAbs (u ++ v) = isAbs u := by
  cases u with
  | nil => exact absurd rfl hu
  | cons x u => simp [isAbs, startsWith, List.isPrefixOf]

theorem osJoin_append (cwd : Str) {u v : Str} (h : isAbs u = false) (hu : u ≠ []) : osJoin cwd (u ++ v) = osJoin cwd u ++ v := by
  rw [osJoin, osJoin, isAbs_append hu, h]
  simp only [Bool.false_eq_true, if_false]
  split <;> simp

/-- C127: A relative path in a file is relative to the directory of the file: it is as if it were written instead of the name of the file. -/
theorem C127_relative {env : Env} {cwd : Str} (henv : env.absJoin = osAbsJoin cwd) {file dir name : Str} (hlocal : getConfigType file = .local)
    (hrel : isAbs file = false) (hdir : dir = [] ∨ dir.getLast? = some '/') (hname : '/' ∉ name) (hd : env.isDir (dir ++ name) = false) :
    getPathRelativeTo env file (dir ++ name) = .ok (osAbspath cwd (dir ++ file)) := by
  rw [getPathRelativeTo, if_neg (by simp [hlocal, hrel]), hd, henv]
  simp only [Bool.false_eq_true, if_false, Except.ok.injEq]
  rw [osAbsJoin, osDirname, upToSlash_eq hdir hname]
  split
  · rename_i hall
    rw [osJoin, hrel]
    simp only [Bool.false_eq_true, if_false]
    rw [if_pos hdir]
  · rename_i hall
    obtain ⟨u, k, h1, h2, h3, h4, h5⟩ := rstripSlash_spec dir (by simpa using hall)
    rw [h1]
    have hk : k ≠ 0 := by
      rintro rfl
      rw [List.replicate_zero, List.append_nil] at h2
      subst h2
      rcases hdir with h | h
      · exact h4 h
      · exact h5 h
    obtain ⟨k, rfl⟩ : ∃ m, k = m + 1 := ⟨k - 1, by omega⟩
    rw [osJoin, hrel]
    simp only [Bool.false_eq_true, if_false]
    rw [if_neg (by simp [h4, h5])]
    rw [h2, List.append_assoc, osAbspath, osAbspath, isAbs_append h4, isAbs_append h4]
    cases habs : isAbs u with
    | true =>
      simp only [if_true]
      exact (normPath_slashes u file h3 k).symm
    | false =>
      simp only [Bool.false_eq_true, if_false]
      rw [osJoin_append cwd habs h4, osJoin_append cwd habs h4]
      refine (normPath_slashes (osJoin cwd u) file ?_ k).symm
      obtain ⟨x, hx, hx'⟩ := h3
      refine ⟨x, ?_, hx'⟩
      rw [osJoin, habs]
      simp only [Bool.false_eq_true, if_false]
      split <;> simp [hx]

/-- If the path of the file is absolute, the current directory does not matter. -/
theorem C127_cwd {env env' : Env} {cwd cwd' : Str} (henv : env.absJoin = osAbsJoin cwd) (henv' : env'.absJoin = osAbsJoin cwd') {file parent : Str}
    (hparent : isAbs parent = true) (hd : env.isDir parent = env'.isDir parent) : getPathRelativeTo env file parent = getPathRelativeTo env' file parent := by
  rw [getPathRelativeTo, getPathRelativeTo, hd]
  split
  · rfl
  split
  · rfl
  rename_i hl _
  simp only [ne_eq, not_or, Decidable.not_not, Bool.not_eq_true] at hl
  rw [henv, henv', osAbsJoin, osAbsJoin]
  have : isAbs (osJoin (osDirname parent) file) = true := by
    have hdn : isAbs (osDirname parent) = true := by
      cases parent with
      | nil => simp [isAbs, startsWith] at hparent
      | cons x p =>
        have hx : x = '/' := Eq.symm (by simpa [isAbs, startsWith, List.isPrefixOf] using hparent)
        subst hx
        have hup : ∃ q, upToSlash ('/' :: p) = '/' :: q := by
          rw [upToSlash, List.reverse_cons]
          have : ∀ r : Str, ∃ q, ((r ++ ['/']).dropWhile (· ≠ '/')) = q ++ ['/'] := by
            intro r
            induction r with
            | nil => exact ⟨[], by simp⟩
            | cons y r ih =>
              by_cases hy : y = '/'
              · exact ⟨y :: r, by simp [hy]⟩
              · obtain ⟨q, hq⟩ := ih
                exact ⟨q, by simpa [hy] using hq⟩
          obtain ⟨q, hq⟩ := this p.reverse
          rw [hq]
          exact ⟨q.reverse, by simp⟩
        obtain ⟨q, hq⟩ := hup
        rw [osDirname, hq]
        split
        · simp [isAbs, startsWith, List.isPrefixOf]
        · rename_i hall
          obtain ⟨u, k, h1, h2, -, h4, -⟩ := rstripSlash_spec ('/' :: q) (by simpa using hall)
          rw [h1]
          have := isAbs_append h4 (List.replicate k '/')
          rw [← h2] at this
          rw [← this]
          simp [isAbs, startsWith, List.isPrefixOf]
    have hne : osDirname parent ≠ [] := by
      intro h
      rw [h] at hdn
      simp [isAbs, startsWith] at hdn
    rw [osJoin, hl.2]
    simp only [Bool.false_eq_true, if_false]
    split
    · rw [isAbs_append hne, hdn]
    · rw [isAbs_append hne, hdn]
  rw [osAbspath, osAbspath, this]
  rfl

/-- What is neither a local file nor relative is not changed. -/
theorem C127_other (env : Env) (file parent : Str) (h : getConfigType file ≠ .local ∨ isAbs file = true) : getPathRelativeTo env file parent = .ok file := by
  rw [getPathRelativeTo, if_pos h]

theorem isAbs_normPath {s : Str} (h : isAbs s = true) : isAbs (normPath s) = true := by
  cases s with
  | nil => simp [isAbs, startsWith] at h
  | cons x s =>
    have hx : x = '/' := Eq.symm (by simpa [isAbs, startsWith, List.isPrefixOf] using h)
    subst hx
    have hr : ∃ n, rootOf ('/' :: s) = n + 1 := by
      unfold rootOf
      split
      · exact ⟨0, rfl⟩
      · exact ⟨1, rfl⟩
      · exact ⟨0, rfl⟩
      · rename_i h1
        exact absurd rfl (h1 s)
    obtain ⟨n, hn⟩ := hr
    rw [normPath, hn, showPath, List.replicate_succ]
    simp [isAbs, startsWith, List.isPrefixOf]

theorem local_of_isAbs {s : Str} (h : isAbs s = true) : getConfigType s = .local := by
  cases s with
  | nil => simp [isAbs, startsWith] at h
  | cons x s =>
    have hx : x = '/' := Eq.symm (by simpa [isAbs, startsWith, List.isPrefixOf] using h)
    subst hx
    have : allowedLetter '/' = false := by decide
    simp [getConfigType, startsWith, List.isPrefixOf, this]

/-- What a path was turned into refers to the same file, wherever it is written: it is the absolute path of a local file. -/
theorem C127_stable {env : Env} {cwd : Str} (henv : env.absJoin = osAbsJoin cwd) (hcwd : isAbs cwd = true) {file parent path : Str}
    (h : getPathRelativeTo env file parent = .ok path) :
    getConfigType path = getConfigType file ∧ (getConfigType file = .local → isAbs path = true) ∧ ∀ env' parent', getPathRelativeTo env' path parent' = .ok path := by
  rw [getPathRelativeTo] at h
  split at h
  · rename_i hf
    cases h
    refine ⟨rfl, fun hl => ?_, fun env' parent' => C127_other env' _ parent' hf⟩
    rcases hf with hf | hf
    · exact absurd hl hf
    · exact hf
  split at h
  · simp at h
  rename_i hl _
  simp only [ne_eq, not_or, Decidable.not_not, Bool.not_eq_true] at hl
  cases h
  have : isAbs (env.absJoin file parent) = true := by
    rw [henv, osAbsJoin, osAbspath]
    apply isAbs_normPath
    split
    · rename_i ha
      exact ha
    · rename_i ha
      have hne : cwd ≠ [] := by
        rintro rfl
        simp [isAbs, startsWith] at hcwd
      rw [osJoin, if_neg ha]
      split
      · rw [isAbs_append hne, hcwd]
      · rw [isAbs_append hne, hcwd]
  have hlo := local_of_isAbs this
  exact ⟨by rw [hlo, hl.1], fun _ => this, fun env' parent' => C127_other env' _ parent' (Or.inr this)⟩

/-- A packaged configuration is read from a file with its name in the directory for these, whatever the name is; the name has no slash. -/
theorem C127_packaged (fs : Files) (s : Str) (h : getConfigType s = .packaged) (hp : fs.package ≠ []) (hp' : fs.package.getLast? ≠ some '/') :
    loadUri fs s = loadLocal fs (fs.package ++ "/files/".toList ++ s ++ ".toml".toList) ∧ '/' ∉ s ++ ".toml".toList ∧ s ++ ".toml".toList ≠ "..".toList := by
  have hall : s.all allowedLetter = true := by
    rw [getConfigType] at h
    split at h
    · simp at h
    split at h
    · assumption
    · simp at h
  have hslash : '/' ∉ s := by
    intro hm
    have := List.all_eq_true.mp hall '/' hm
    exact absurd this (by decide)
  have habs : isAbs (s ++ ".toml".toList) = false := by
    cases s with
    | nil => decide
    | cons x s =>
      have : x ≠ '/' := fun e => hslash (by simp [e])
      simp [isAbs, startsWith, List.isPrefixOf, Ne.symm this]
  refine ⟨?_, ?_, ?_⟩
  · rw [loadUri, h]
    simp only
    rw [loadPackaged, if_pos hall, packagedFile]
    have h1 : osJoin fs.package "files".toList = fs.package ++ "/files".toList := by
      rw [osJoin, if_neg (by decide), if_neg (by simp [hp, hp'])]
      rfl
    rw [h1, osJoin, habs]
    simp only [Bool.false_eq_true, if_false]
    rw [if_neg (by simp)]
    congr 1
    simp
  · simp [hslash]
  · intro he
    have := congrArg List.length he
    simp at this

/-- A file that cannot be read is no error, whatever the exception is. -/
theorem C127_unreadable {α : Type} (fs : Files) (parse : Str → Except PyErr (Option α)) (s : Str) :
    (∀ e, loadUri fs s = .error e → loadToml fs parse s = .ok none) ∧ ∀ content, loadUri fs s = .ok content → loadToml fs parse s = parse content := by
  refine ⟨fun e h => ?_, fun content h => ?_⟩ <;> rw [loadToml, h]

/-! ### Examples -/

/-- Nothing is known but the current directory. -/
def cwdEnv (cwd : Str) : Env := ⟨fun _ => .ok [], fun _ => none, fun _ => false, osAbsJoin cwd, id, fun _ => []⟩

example : getPathRelativeTo (cwdEnv "/home/u".toList) "../b.toml".toList "/c/d/a.toml".toList = .ok "/c/b.toml".toList := by decide +kernel

example : getPathRelativeTo (cwdEnv "/home/u".toList) "b.toml".toList "d//a.py".toList = .ok "/home/u/d/b.toml".toList := by decide +kernel

/-- The directory of the file is `d//`. -/
example : getPathRelativeTo (cwdEnv "/home/u".toList) "b.toml".toList "d//a.py".toList = .ok (osAbspath "/home/u".toList "d//b.toml".toList) :=
  C127_relative (dir := "d//".toList) (name := "a.py".toList) rfl (by decide +kernel) (by decide) (by decide) (by decide) rfl

/-- There is one file. -/
def oneFile (path content : Str) : Files := ⟨"/p/config".toList, (· = path), fun _ => .ok content, fun _ => .error .fileNotFound⟩

example : loadUri (oneFile "/p/config/files/cs1.toml".toList "x".toList) "cs1".toList = .ok "x".toList := by decide +kernel

example : loadToml (oneFile "/p/config/files/cs1.toml".toList "x".toList) (fun s => .ok (some s)) "cs2".toList = .ok none := by decide +kernel

/-- A relative path in a file that is not local is not relative to it: in one from the network it is a path in the current directory that begins with the
address. -/
theorem C127_remote_counterexample : getConfigType "https://e.org/a.toml".toList = .remote ∧
    getPathRelativeTo (cwdEnv "/home/u".toList) "b.toml".toList "https://e.org/a.toml".toList = .ok "/home/u/https:/e.org/b.toml".toList := by decide +kernel

end Verif
