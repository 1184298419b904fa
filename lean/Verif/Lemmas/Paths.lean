import Verif.Model.Linting
import Verif.Lemmas.Str
import Mathlib.Tactic.ByContra

/-!
Path functions: writing a path down and reading it again, normal forms.
-/

namespace Verif

/-- A component that is neither empty nor `.` and contains no slash. -/
def GoodComp (c : Str) : Prop := c ≠ [] ∧ c ≠ ['.'] ∧ '/' ∉ c

theorem goodComp_of_pathParts {s c : Str} (h : c ∈ pathParts s) : GoodComp c := by
  simp only [pathParts, List.mem_filter, decide_eq_true_eq] at h
  exact ⟨h.2.1, h.2.2, not_mem_splitOn h.1⟩

theorem pathParts_join {cs : List Str} (h : ∀ c ∈ cs, GoodComp c) : pathParts (joinWith ['/'] cs) = cs := by
  cases cs with
  | nil => simp [pathParts, joinWith, splitOn]
  | cons c cs =>
    unfold pathParts
    rw [splitOn_join (by simp) fun w hw => (h w hw).2.2, List.filter_eq_self]
    intro w hw
    simp [(h w hw).1, (h w hw).2.1]

theorem pathParts_slash (s : Str) : pathParts ('/' :: s) = pathParts s := by
  simp [pathParts, splitOn]

theorem pathParts_replicate (n : Nat) (s : Str) : pathParts (List.replicate n '/' ++ s) = pathParts s := by
  induction n with
  | zero => rfl
  | succ n ih => rw [List.replicate_succ, List.cons_append, pathParts_slash, ih]

/-- The text of good components starts with a character that is not a slash. -/
theorem join_head {cs : List Str} (h : ∀ c ∈ cs, GoodComp c) (hne : cs ≠ []) :
    ∃ x s, joinWith ['/'] cs = x :: s ∧ x ≠ '/' := by
  cases cs with
  | nil => exact absurd rfl hne
  | cons c cs =>
    obtain ⟨h1, -, h3⟩ := h c (by simp)
    cases c with
    | nil => exact absurd rfl h1
    | cons x c =>
      have hx : x ≠ '/' := fun e => h3 (by simp [e])
      cases cs with
      | nil => exact ⟨x, c, rfl, hx⟩
      | cons d ds => exact ⟨x, c ++ ['/'] ++ joinWith ['/'] (d :: ds), by simp [joinWith], hx⟩

theorem rootOf_other {x : Char} (s : Str) (hx : x ≠ '/') : rootOf (x :: s) = 0 := by
  unfold rootOf
  split <;> simp_all

theorem rootOf_two {x : Char} (s : Str) (hx : x ≠ '/') : rootOf ('/' :: '/' :: x :: s) = 2 := by
  unfold rootOf
  split
  · rename_i h; simp at h; exact absurd h.1 hx
  · rfl
  · rename_i h2 h; simp only [List.cons.injEq, true_and] at h; exact absurd h.symm (h2 _)
  · rename_i h; exact absurd rfl (h _)

theorem rootOf_le (s : Str) : rootOf s ≤ 2 := by
  unfold rootOf; split <;> simp

/-- Reading a path that was written down gives it back. -/
theorem parse_showPath {root : Nat} {cs : List Str} (hr : root ≤ 2) (h : ∀ c ∈ cs, GoodComp c) :
    PPath.parse (showPath root cs) = ⟨root, cs⟩ := by
  have hparts : ∀ s, (List.replicate root '/' ++ joinWith ['/'] cs) = s → pathParts s = cs := by
    rintro s rfl
    rw [pathParts_replicate, pathParts_join h]
  have hroot : cs ≠ [] ∨ root ≠ 0 → rootOf (List.replicate root '/' ++ joinWith ['/'] cs) = root := by
    intro hcase
    cases cs with
    | nil =>
      have : root = 0 ∨ root = 1 ∨ root = 2 := by omega
      rcases this with rfl | rfl | rfl
      · simp at hcase
      · rfl
      · rfl
    | cons c cs =>
      obtain ⟨x, s, hj, hx⟩ := join_head h (by simp)
      rw [hj]
      have : root = 0 ∨ root = 1 ∨ root = 2 := by omega
      rcases this with rfl | rfl | rfl
      · exact rootOf_other s hx
      · simp only [List.replicate_one, List.cons_append, List.nil_append, rootOf]
        split <;> simp_all
      · exact rootOf_two s hx
  unfold showPath
  split
  · rename_i he
    rw [List.append_eq_nil_iff] at he
    have h0 : root = 0 := by simpa using he.1
    have hc : cs = [] := by
      cases cs with
      | nil => rfl
      | cons c cs =>
        obtain ⟨x, s, hj, hx⟩ := join_head h (by simp)
        rw [hj] at he; simp at he
    subst h0 hc
    decide
  · rename_i hne
    rw [PPath.parse, hparts _ rfl, hroot]
    by_contra hcon
    simp only [not_or, ne_eq, Decidable.not_not] at hcon
    obtain ⟨rfl, rfl⟩ := hcon
    exact hne rfl

theorem normComps_plain {rooted : Bool} {acc cs : List Str} (h : ['.', '.'] ∉ cs) :
    normComps rooted acc cs = acc.reverse ++ cs.filter fun c => c ≠ [] ∧ c ≠ ['.'] := by
  induction cs generalizing acc with
  | nil => simp [normComps]
  | cons c cs ih =>
    have hc : c ≠ ['.', '.'] := fun e => h (by simp [e])
    have hcs : ['.', '.'] ∉ cs := fun e => h (by simp [e])
    simp only [normComps]
    split
    · rename_i hd
      rw [ih hcs]
      have : ¬ (c ≠ [] ∧ c ≠ ['.']) := by
        rcases hd with rfl | rfl <;> simp
      simp only [List.filter_cons, decide_eq_true_eq, this, if_false]
    · rename_i hd
      rw [ih hcs]
      have : c ≠ [] ∧ c ≠ ['.'] := by simpa [not_or] using hd
      simp only [List.filter_cons, decide_eq_true_eq, this, ne_eq, not_false_eq_true, and_self, if_true,
        List.reverse_cons, List.append_assoc, List.cons_append, List.nil_append]

/-- The current directory is given by plain components. -/
def FsEnv.Normal (fs : FsEnv) : Prop := ∀ c ∈ fs.cwd, GoodComp c ∧ c ≠ ['.', '.']

theorem mem_pathParts_dotdot {s : Str} : ['.', '.'] ∈ pathParts s ↔ ['.', '.'] ∈ splitOn '/' s := by
  simp [pathParts]

theorem commonLen_append (a b : List Str) : commonLen a (a ++ b) = a.length := by
  induction a with
  | nil => cases b <;> rfl
  | cons x a ih => simp [commonLen, ih]

theorem relComps_below (start rel : List Str) : relComps start (start ++ rel) = rel := by
  simp [relComps, commonLen_append]

/-- A path without `..` keeps its meaning: what is stored in a problem is the same path. -/
theorem parse_properPath {fs : FsEnv} (hfs : fs.Normal) {s : Str} (hne : s ≠ [])
    (h : ['.', '.'] ∉ pathParts s) : ∃ p, properPath fs s = .ok p ∧ PPath.parse p = PPath.parse s := by
  have h' : ['.', '.'] ∉ splitOn '/' s := fun e => h (mem_pathParts_dotdot.2 e)
  have hgood : ∀ c ∈ pathParts s, GoodComp c := fun c hc => goodComp_of_pathParts hc
  unfold properPath
  split
  · refine ⟨_, rfl, ?_⟩
    rename_i ha
    rw [normPath, normComps_plain h', List.reverse_nil, List.nil_append]
    exact parse_showPath (rootOf_le s) hgood
  · rename_i ha
    have h0 : rootOf s = 0 := by simpa [hasRoot] using ha
    refine ⟨_, by rw [relPath, if_neg hne], ?_⟩
    have habs : absComps fs s = fs.cwd ++ pathParts s := by
      rw [absComps, if_neg ha, normComps_plain]
      · rw [List.reverse_nil, List.nil_append, List.filter_append]
        congr 1
        rw [List.filter_eq_self]
        intro c hc
        simp [(hfs c hc).1.1, (hfs c hc).1.2.1]
      · rw [List.mem_append]
        rintro (hc | hc)
        · exact (hfs _ hc).2 rfl
        · exact h' hc
    rw [habs, relComps_below, parse_showPath (by omega) hgood, PPath.parse, h0]

end Verif
