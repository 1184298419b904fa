import Verif.Model.Problem
import Mathlib.Tactic.ByContra

/-!
C16–C18: overriding and ordering of problems.
-/

namespace Verif

/-! ### C16 -/

/-- Code `c` is overridden by code `o` according to the table. -/
def Overrides (table : Dict Str (List Str)) (o c : Str) : Prop :=
  ∃ os, Dict.get? table c = some os ∧ o ∈ os

/-- A problem of an overriding kind was found at the same place. -/
def Overridden (table : Dict Str (List Str)) (found : List Problem) (p : Problem) : Prop :=
  ∃ q ∈ found, q.path = p.path ∧ q.line = p.line ∧ Overrides table q.code p.code

theorem overridden_iff (table : Dict Str (List Str)) (found : List Problem) (p : Problem) :
    Overridden table found p ↔
      (((Dict.get? table p.code).getD []).any
        fun c => (codesOnLine found p.path p.line).contains c) = true := by
  simp only [Overridden, Overrides, List.any_eq_true, List.contains_eq_mem, decide_eq_true_eq,
    codesOnLine, List.mem_map, List.mem_filter]
  constructor
  · rintro ⟨q, hq, h1, h2, os, hos, hmem⟩
    exact ⟨q.code, by simp [hos, hmem], q, ⟨hq, h1, h2⟩, rfl⟩
  · rintro ⟨c, hc, q, ⟨hq, h1, h2⟩, rfl⟩
    cases hg : Dict.get? table p.code with
    | none => simp [hg] at hc
    | some os => exact ⟨q, hq, h1, h2, os, rfl, by simpa [hg] using hc⟩

open Classical in
theorem applyOverrides_eq (table : Dict Str (List Str)) (found : List Problem) :
    applyOverrides table found = found.filter fun p => decide (¬ Overridden table found p) := by
  unfold applyOverrides
  apply List.filter_congr
  intro p _
  have := overridden_iff table found p
  by_cases h : Overridden table found p
  · simp only [h, not_true_eq_false, decide_false]
    rw [this.1 h]; rfl
  · simp only [h, not_false_eq_true, decide_true]
    rw [Bool.eq_false_iff.2 (fun x => h (this.2 x))]; rfl

/-- **C16.** A problem is suppressed exactly if a problem of an overriding kind was found on the same line
of the same file; the others keep their order and multiplicity; a second pass changes nothing. For any
table of overriders, in particular the one of the code. -/
theorem C16_overriding_exact (table : Dict Str (List Str)) (found : List Problem) :
    (∀ p ∈ found, p ∉ applyOverrides table found ↔ Overridden table found p) ∧
      (applyOverrides table found).Sublist found ∧
      (∀ p, ¬ Overridden table found p →
        (applyOverrides table found).count p = found.count p) ∧
      applyOverrides table (applyOverrides table found) = applyOverrides table found := by
  classical
  refine ⟨?_, ?_, ?_, ?_⟩
  · intro p hp
    rw [applyOverrides_eq]
    simp [hp]
  · rw [applyOverrides_eq]; exact List.filter_sublist
  · intro p hp
    rw [applyOverrides_eq, List.count_filter]
    simpa using hp
  · rw [applyOverrides_eq table (applyOverrides table found), List.filter_eq_self]
    intro p hp
    rw [applyOverrides_eq] at hp ⊢
    simp only [List.mem_filter, decide_eq_true_eq] at hp ⊢
    rintro ⟨q, hq, h⟩
    exact hp.2 ⟨q, (List.mem_filter.1 hq).1, h⟩

/-- A problem for the examples. -/
def exProblem (path code : String) (line column : Int) : Problem :=
  ⟨.pylint, none, path.toList, line, column, code.toList, [], none, none, none⟩

example : applyOverrides overriders
    [exProblem "a.py" "C0103" 1 0, exProblem "a.py" "C0103" 2 0, exProblem "a.py" "F841" 1 4]
    = [exProblem "a.py" "C0103" 2 0, exProblem "a.py" "F841" 1 4] := by decide

/-! ### C17 -/

/-- How many times a kind can be overridden in a chain. -/
def overrideRank (c : Str) : Nat :=
  if c = "R6213".toList then 2 else if (Dict.get? overriders c).isSome then 1 else 0

theorem overrideRank_lt {o c : Str} (h : Overrides overriders o c) : overrideRank o < overrideRank c := by
  obtain ⟨os, hos, ho⟩ := h
  have key : ∀ kv ∈ overriders, ∀ o ∈ kv.2, overrideRank o < overrideRank kv.1 := by decide
  exact key (c, os) (Dict.mem_of_get? hos) o ho

/-- On a line with a problem there is one that no other problem overrides. -/
theorem exists_top (found : List Problem) (p : Problem) (hp : p ∈ found) :
    ∃ q ∈ found, q.path = p.path ∧ q.line = p.line ∧ ¬ Overridden overriders found q ∧
      (q = p ∨ ∃ c, Overrides overriders q.code c) := by
  induction hn : overrideRank p.code using Nat.strongRecOn generalizing p with
  | _ n ih =>
    by_cases h : Overridden overriders found p
    · obtain ⟨q, hq, h1, h2, ho⟩ := h
      obtain ⟨r, hr, hr1, hr2, hr3, hr4⟩ := ih _ (hn ▸ overrideRank_lt ho) q hq rfl
      refine ⟨r, hr, hr1.trans h1, hr2.trans h2, hr3, Or.inr ?_⟩
      rcases hr4 with rfl | hr4
      · exact ⟨_, ho⟩
      · exact hr4
    · exact ⟨p, hp, rfl, rfl, h, Or.inl rfl⟩

/-- **C17.** If any problem was found on a line, some problem found on that line survives. -/
theorem C17_line_survives (found : List Problem) (p : Problem) (hp : p ∈ found) :
    ∃ q ∈ applyOverrides overriders found, q ∈ found ∧ q.path = p.path ∧ q.line = p.line := by
  obtain ⟨q, hq, h1, h2, h3, -⟩ := exists_top found p hp
  refine ⟨q, ?_, hq, h1, h2⟩
  by_contra hn
  exact h3 (((C16_overriding_exact overriders found).1 q hq).1 hn)

/-- The claim depends on the table: with a cycle, a line can be silenced. -/
example : applyOverrides [("A".toList, ["B".toList]), ("B".toList, ["A".toList])]
    [exProblem "a.py" "A" 1 0, exProblem "a.py" "B" 1 0] = [] := by decide

/-! ### C18 -/

/-- The given path that a file belongs to is the `i`-th one, and no earlier one. -/
def BelongsTo (files : List Str) (path : Str) (i : Nat) : Prop :=
  let below (fd : Str) : Prop :=
    (PPath.parse fd).root = (PPath.parse path).root ∧ (PPath.parse fd).parts <+: (PPath.parse path).parts
  (∃ fd, files[i]? = some fd ∧ below fd) ∧ ∀ j fd, j < i → files[j]? = some fd → ¬ below fd

theorem below_iff (fd path : PPath) :
    (fd = path ∨ fd.isParentOf path = true) ↔ fd.root = path.root ∧ fd.parts <+: path.parts := by
  obtain ⟨r, ps⟩ := fd
  obtain ⟨r', ps'⟩ := path
  simp only [PPath.mk.injEq, PPath.isParentOf, Bool.and_eq_true, decide_eq_true_eq,
    List.isPrefixOf_iff_prefix]
  constructor
  · rintro (⟨rfl, rfl⟩ | ⟨⟨h1, h2⟩, -⟩)
    · exact ⟨rfl, List.prefix_refl _⟩
    · exact ⟨h1, h2⟩
  · rintro ⟨rfl, h2⟩
    by_cases h : ps = ps'
    · exact Or.inl ⟨rfl, h⟩
    · exact Or.inr ⟨⟨rfl, h2⟩, h⟩

theorem pathIndexFrom_ok {path : PPath} {files : List Str} {b i : Int}
    (h : pathIndexFrom path b files = .ok i) :
    ∃ n : Nat, i = b + n ∧
      (∃ fd, files[n]? = some fd ∧ (PPath.parse fd).root = path.root ∧
        (PPath.parse fd).parts <+: path.parts) ∧
      ∀ j fd, j < n → files[j]? = some fd →
        ¬ ((PPath.parse fd).root = path.root ∧ (PPath.parse fd).parts <+: path.parts) := by
  induction files generalizing b with
  | nil => simp [pathIndexFrom] at h
  | cons fd fds ih =>
    simp only [pathIndexFrom] at h
    split at h
    · rename_i hb
      cases h
      exact ⟨0, by simp, ⟨fd, rfl, (below_iff _ _).1 hb⟩, by simp⟩
    · rename_i hb
      obtain ⟨n, rfl, ⟨fd', h1, h2⟩, h3⟩ := ih h
      refine ⟨n + 1, by push_cast; omega, ⟨fd', by simpa using h1, h2⟩, ?_⟩
      intro j g hj hg
      cases j with
      | zero =>
        simp only [List.getElem?_cons_zero, Option.some.injEq] at hg
        subst hg
        exact fun x => hb ((below_iff _ _).2 x)
      | succ j => exact h3 j g (by omega) (by simpa using hg)

theorem belongsTo_unique {files : List Str} {path : Str} {i j : Nat}
    (hi : BelongsTo files path i) (hj : BelongsTo files path j) : i = j := by
  obtain ⟨⟨f, hf, hfb⟩, hi'⟩ := hi
  obtain ⟨⟨g, hg, hgb⟩, hj'⟩ := hj
  rcases Nat.lt_trichotomy i j with h | h | h
  · exact absurd hfb (hj' i f h hf)
  · exact h
  · exact absurd hgb (hi' j g h hg)

/-- Strict lexicographic order of strings by code points. -/
def StrLt (a b : Str) : Prop := List.Lex (fun c d : Char => c.toNat < d.toNat) a b

theorem strLe_iff (a b : Str) : strLe a b = true ↔ a = b ∨ StrLt a b := by
  induction a generalizing b with
  | nil =>
    cases b with
    | nil => simp [strLe]
    | cons d b => simp only [strLe, true_iff]; exact Or.inr List.Lex.nil
  | cons c a ih =>
    cases b with
    | nil =>
      simp only [strLe, Bool.false_eq_true, reduceCtorEq, false_or, false_iff]
      intro h; cases h
    | cons d b =>
      simp only [strLe, List.cons.injEq]
      by_cases h : c = d
      · subst h
        simp only [if_true, ih, true_and]
        constructor
        · rintro (h | h)
          · exact Or.inl h
          · exact Or.inr (List.Lex.cons h)
        · rintro (h | h)
          · exact Or.inl h
          · cases h with
            | cons h => exact Or.inr h
            | rel h => exact absurd h (by simp)
      · simp only [h, if_false, false_and, false_or, decide_eq_true_eq]
        constructor
        · exact fun h => List.Lex.rel h
        · intro h'
          cases h' with
          | cons h' => exact absurd rfl h
          | rel h' => exact h'

theorem strLe_total (a b : Str) : strLe a b = true ∨ strLe b a = true := by
  induction a generalizing b with
  | nil => simp [strLe]
  | cons c a ih =>
    cases b with
    | nil => simp [strLe]
    | cons d b =>
      simp only [strLe]
      by_cases h : c = d
      · subst h; simpa using ih b
      · have h' : ¬ d = c := fun x => h x.symm
        have : c.toNat ≠ d.toNat := fun x => h (Char.toNat_inj.1 x)
        simp only [h, h', if_false, decide_eq_true_eq]
        omega

theorem strLe_antisymm {a b : Str} (h : strLe a b = true) (h' : strLe b a = true) : a = b := by
  induction a generalizing b with
  | nil =>
    cases b with
    | nil => rfl
    | cons d b => simp [strLe] at h'
  | cons c a ih =>
    cases b with
    | nil => simp [strLe] at h
    | cons d b =>
      simp only [strLe] at h h'
      by_cases hcd : c = d
      · subst hcd
        simp only [if_true] at h h'
        rw [ih h h']
      · have hdc : ¬ d = c := fun x => hcd x.symm
        simp only [hcd, hdc, if_false, decide_eq_true_eq] at h h'
        omega

theorem strLe_trans {a b c : Str} (h : strLe a b = true) (h' : strLe b c = true) : strLe a c = true := by
  induction a generalizing b c with
  | nil => simp [strLe]
  | cons x a ih =>
    cases b with
    | nil => simp [strLe] at h
    | cons y b =>
      cases c with
      | nil => simp [strLe] at h'
      | cons z c =>
        simp only [strLe] at h h' ⊢
        by_cases hxy : x = y
        · subst hxy
          by_cases hxz : x = z
          · subst hxz
            simp only [if_true] at h h' ⊢
            exact ih h h'
          · simp only [if_true, hxz, if_false] at h h' ⊢
            exact h'
        · simp only [hxy, if_false, decide_eq_true_eq] at h
          by_cases hyz : y = z
          · subst hyz
            simp only [hxy, if_false, decide_eq_true_eq]
            exact h
          · simp only [hyz, if_false, decide_eq_true_eq] at h'
            have hxz : x ≠ z := by rintro rfl; omega
            simp only [hxz, if_false, decide_eq_true_eq]
            omega

theorem keyLe_total (a b : Int × Problem) : keyLe a b = true ∨ keyLe b a = true := by
  unfold keyLe
  by_cases h1 : a.1 = b.1
  · by_cases h2 : a.2.path = b.2.path
    · by_cases h3 : a.2.line = b.2.line
      · simp only [h1, h2, h3, ne_eq, not_true_eq_false, if_false, decide_eq_true_eq]; omega
      · have h3' : ¬ b.2.line = a.2.line := fun x => h3 x.symm
        simp only [h1, h2, h3, h3', ne_eq, not_true_eq_false,
          not_false_eq_true, if_false, if_true, decide_eq_true_eq]; omega
    · have h2' : ¬ b.2.path = a.2.path := fun x => h2 x.symm
      simp only [h1, h2, h2', ne_eq, not_true_eq_false,
        not_false_eq_true, if_false, if_true]
      exact strLe_total _ _
  · have h1' : ¬ b.1 = a.1 := fun x => h1 x.symm
    simp only [h1, h1', ne_eq, not_false_eq_true, if_true,
      decide_eq_true_eq]; omega

theorem keyLe_trans {a b c : Int × Problem} (h : keyLe a b = true) (h' : keyLe b c = true) :
    keyLe a c = true := by
  unfold keyLe at *
  by_cases i1 : a.1 = b.1 <;> by_cases i2 : b.1 = c.1
  · rw [if_neg (by simp [i1])] at h
    rw [if_neg (by simp [i2])] at h'
    rw [if_neg (by simp [i1, i2])]
    by_cases p1 : a.2.path = b.2.path <;> by_cases p2 : b.2.path = c.2.path
    · rw [if_neg (by simp [p1])] at h
      rw [if_neg (by simp [p2])] at h'
      rw [if_neg (by simp [p1, p2])]
      split at h <;> split at h' <;> split <;> simp_all <;> omega
    · rw [if_pos p2] at h'
      rw [if_pos (by rw [p1]; exact p2), p1]
      exact h'
    · rw [if_pos p1] at h
      rw [if_pos (by rw [← p2]; exact p1), ← p2]
      exact h
    · rw [if_pos p1] at h
      rw [if_pos p2] at h'
      have hac : a.2.path ≠ c.2.path := by
        intro x
        rw [x] at h
        exact p2 (strLe_antisymm h' h)
      rw [if_pos hac]
      exact strLe_trans h h'
  · rw [if_pos i2] at h'
    rw [if_pos (by rw [i1]; exact i2), i1]
    exact h'
  · rw [if_pos i1] at h
    rw [if_pos (by rw [← i2]; exact i1), ← i2]
    exact h
  · rw [if_pos i1] at h
    rw [if_pos i2] at h'
    simp only [decide_eq_true_eq] at h h'
    rw [if_pos (show a.1 ≠ c.1 by omega)]
    simp only [decide_eq_true_eq]
    omega

theorem insertKey_perm (x : Int × Problem) (l) : (insertKey x l).Perm (x :: l) := by
  induction l with
  | nil => exact List.Perm.refl _
  | cons y ys ih =>
    simp only [insertKey]
    split
    · exact List.Perm.refl _
    · exact (ih.cons y).trans (List.Perm.swap x y ys)

theorem stableSort_perm (l) : (stableSort l).Perm l := by
  induction l with
  | nil => exact List.Perm.refl _
  | cons x l ih => exact (insertKey_perm x _).trans (ih.cons x)

theorem insertKey_sorted (x : Int × Problem) (l) (h : l.Pairwise fun a b => keyLe a b = true) :
    (insertKey x l).Pairwise fun a b => keyLe a b = true := by
  induction l with
  | nil => simp [insertKey]
  | cons y ys ih =>
    rw [List.pairwise_cons] at h
    simp only [insertKey]
    split
    · rename_i hxy
      rw [List.pairwise_cons, List.pairwise_cons]
      refine ⟨?_, h⟩
      intro z hz
      rcases List.mem_cons.1 hz with rfl | hz
      · exact hxy
      · exact keyLe_trans hxy (h.1 z hz)
    · rename_i hxy
      rw [List.pairwise_cons]
      refine ⟨?_, ih h.2⟩
      intro z hz
      rcases List.mem_cons.1 ((insertKey_perm x ys).mem_iff.1 hz) with rfl | hz
      · exact (keyLe_total z y).resolve_left hxy
      · exact h.1 z hz

theorem stableSort_sorted (l) : (stableSort l).Pairwise fun a b => keyLe a b = true := by
  induction l with
  | nil => simp [stableSort]
  | cons x l ih => exact insertKey_sorted x _ ih

theorem insertKey_filter (P : Int × Problem → Bool)
    (hP : ∀ a b, P a = true → P b = true → keyLe a b = true) (x : Int × Problem) (l) :
    (insertKey x l).filter P = (x :: l).filter P := by
  induction l with
  | nil => rfl
  | cons y ys ih =>
    simp only [insertKey]
    split
    · rfl
    · rename_i hxy
      rw [List.filter_cons, ih]
      by_cases hx : P x = true
      · by_cases hy : P y = true
        · exact absurd (hP x y hx hy) hxy
        · simp [hx, hy]
      · by_cases hy : P y = true <;> simp [hx, hy]

theorem stableSort_filter (P : Int × Problem → Bool)
    (hP : ∀ a b, P a = true → P b = true → keyLe a b = true) (l) :
    (stableSort l).filter P = l.filter P := by
  induction l with
  | nil => rfl
  | cons x l ih =>
    show (insertKey x (stableSort l)).filter P = _
    rw [insertKey_filter P hP, List.filter_cons, ih, List.filter_cons]

theorem withIndices_ok {files ps l} (h : withIndices files ps = .ok l) :
    l.map (·.2) = ps ∧ ∀ x ∈ l, pathIndex files x.2.path = .ok x.1 := by
  induction ps generalizing l with
  | nil => simp only [withIndices, Except.ok.injEq] at h; subst h; simp
  | cons p ps ih =>
    simp only [withIndices] at h
    split at h
    · simp at h
    · rename_i i hi
      split at h
      · simp at h
      · rename_i r hr
        cases h
        obtain ⟨h1, h2⟩ := ih hr
        refine ⟨by simp [h1], ?_⟩
        intro x hx
        rcases List.mem_cons.1 hx with rfl | hx
        · exact hi
        · exact h2 x hx

theorem withIndices_of_ok {files ps} (h : ∀ p ∈ ps, ∃ i, pathIndex files p.path = .ok i) :
    ∃ l, withIndices files ps = .ok l := by
  induction ps with
  | nil => exact ⟨[], rfl⟩
  | cons p ps ih =>
    obtain ⟨i, hi⟩ := h p (by simp)
    obtain ⟨l, hl⟩ := ih fun q hq => h q (by simp [hq])
    exact ⟨(i, p) :: l, by simp [withIndices, hi, hl]⟩

/-- Position in the output order: what belongs to the `i`-th given path, or to none (`-1`). -/
def Rank (files : List Str) (p : Problem) (i : Int) : Prop :=
  (isOutOfFile p.path = true ∧ i = -1) ∨
    (isOutOfFile p.path = false ∧ ∃ n : Nat, i = n ∧ BelongsTo files p.path n)

theorem rank_unique {files p q i j} (hpq : p.path = q.path) (hi : Rank files p i) (hj : Rank files q j) :
    i = j := by
  unfold Rank at hi hj
  rw [hpq] at hi
  rcases hi with ⟨h1, rfl⟩ | ⟨h1, n, rfl, hn⟩ <;> rcases hj with ⟨h2, rfl⟩ | ⟨h2, m, rfl, hm⟩
  · rfl
  · simp [h1] at h2
  · simp [h1] at h2
  · rw [belongsTo_unique hn hm]

theorem pathIndex_rank {files : List Str} {p : Problem} {i : Int}
    (h : pathIndex files p.path = .ok i) : Rank files p i := by
  unfold pathIndex at h
  split at h
  · rename_i ho
    cases h
    exact Or.inl ⟨ho, rfl⟩
  · rename_i ho
    obtain ⟨n, rfl, h1, h2⟩ := pathIndexFrom_ok h
    exact Or.inr ⟨by simpa using ho, n, by simp, h1, h2⟩

/-- The order of the output: by given path, then path, line and column. -/
def Before (files : List Str) (p q : Problem) : Prop :=
  ∃ i j, Rank files p i ∧ Rank files q j ∧
    (i < j ∨ i = j ∧ (StrLt p.path q.path ∨ p.path = q.path ∧
      (p.line < q.line ∨ p.line = q.line ∧ p.column ≤ q.column)))

theorem keyLe_before {files : List Str} {a b : Int × Problem} (ha : Rank files a.2 a.1)
    (hb : Rank files b.2 b.1) (h : keyLe a b = true) : Before files a.2 b.2 := by
  refine ⟨a.1, b.1, ha, hb, ?_⟩
  unfold keyLe at h
  split at h
  · left; simpa using h
  · rename_i h1
    refine Or.inr ⟨by simpa using h1, ?_⟩
    split at h
    · rename_i h2
      rcases (strLe_iff _ _).1 h with h | h
      · exact absurd h h2
      · exact Or.inl h
    · rename_i h2
      refine Or.inr ⟨by simpa using h2, ?_⟩
      split at h
      · left; simpa using h
      · rename_i h3
        exact Or.inr ⟨by simpa using h3, by simpa using h⟩

/-- **C18** for paths as the code ranks them: the output is a permutation of the found problems, ordered by
given path, path, line and column, and problems at the same position keep their order. The part missing
from the property: a file whose name contains "command line" or "configuration file" is ranked
before all given paths (`Rank`), see `C18_counterexample`. -/
theorem C18_order_partial (files : List Str) (found out : List Problem)
    (h : sortProblems files found = .ok out) :
    out.Perm found ∧ out.Pairwise (Before files) ∧
      ∀ path line column,
        out.filter (fun p => p.path = path ∧ p.line = line ∧ p.column = column)
          = found.filter fun p => p.path = path ∧ p.line = line ∧ p.column = column := by
  unfold sortProblems at h
  split at h
  · simp at h
  · rename_i l hl
    cases h
    obtain ⟨hmap, hidx⟩ := withIndices_ok hl
    have hidx' : ∀ x ∈ l, Rank files x.2 x.1 := fun x hx => pathIndex_rank (hidx x hx)
    refine ⟨?_, ?_, ?_⟩
    · rw [← hmap]
      exact (stableSort_perm l).map _
    · rw [List.pairwise_map]
      refine (stableSort_sorted l).imp_of_mem ?_
      intro a b ha hb hab
      exact keyLe_before (hidx' a ((stableSort_perm l).mem_iff.1 ha))
        (hidx' b ((stableSort_perm l).mem_iff.1 hb)) hab
    · intro path line column
      classical
      have hcongr : ∀ l' : List (Int × Problem), (∀ x ∈ l', Rank files x.2 x.1) →
          (l'.map (·.2)).filter (fun p => decide (p.path = path ∧ p.line = line ∧ p.column = column))
          = (l'.filter fun x => decide (x.2.path = path ∧ x.2.line = line ∧ x.2.column = column ∧
              Rank files x.2 x.1)).map (·.2) := by
        intro l' hl'
        rw [List.filter_map]
        congr 1
        apply List.filter_congr
        intro x hx
        simp [hl' x hx]
      have h1 := hcongr (stableSort l) fun x hx => hidx' x ((stableSort_perm l).mem_iff.1 hx)
      have h2 := hcongr l hidx'
      rw [h1, ← hmap, h2, stableSort_filter]
      intro a b ha hb
      simp only [decide_eq_true_eq] at ha hb
      obtain ⟨a1, a2, a3, a4⟩ := ha
      obtain ⟨b1, b2, b3, b4⟩ := hb
      have : a.1 = b.1 := rank_unique (a1.trans b1.symm) a4 b4
      simp [keyLe, this, a1, b1, a2, b2, a3, b3]

example : sortProblems ["b".toList, "a.py".toList]
    [exProblem "a.py" "E1" 1 0, exProblem "b/y.py" "E1" 2 0, exProblem "b/x.py" "E1" 9 0,
      exProblem "b/y.py" "E2" 1 5, exProblem "b/y.py" "E3" 1 5]
    = .ok [exProblem "b/x.py" "E1" 9 0, exProblem "b/y.py" "E2" 1 5, exProblem "b/y.py" "E3" 1 5,
      exProblem "b/y.py" "E1" 2 0, exProblem "a.py" "E1" 1 0] := by decide

/-- **C18 is false of the code** for a file named like pylint's marker of problems outside of files: its
problems come before those of a path given earlier. -/
theorem C18_counterexample :
    ∃ files found out a b, sortProblems files found = .ok out ∧ out = [b, a] ∧
      BelongsTo files a.path 0 ∧ BelongsTo files b.path 1 ∧ files = [a.path, b.path] := by
  refine ⟨["a.py".toList, "command line.py".toList],
    [exProblem "a.py" "E1" 1 0, exProblem "command line.py" "E1" 1 0], _,
    exProblem "a.py" "E1" 1 0, exProblem "command line.py" "E1" 1 0, rfl, by decide, ?_, ?_, rfl⟩
  · exact ⟨⟨_, rfl, by decide, by decide⟩, by intro j fd hj; omega⟩
  · refine ⟨⟨_, rfl, by decide, by decide⟩, ?_⟩
    intro j fd hj hfd
    have : j = 0 := by omega
    subst this
    simp only [List.getElem?_cons_zero, Option.some.injEq] at hfd
    subst hfd
    decide

end Verif
