import Verif.Model.DupSequence
import Mathlib.Tactic.Ring
import Mathlib.Tactic.ByContra
import Mathlib.Tactic.Push

/-!
C135: What is reported as a sequence that can be a loop.
-/

namespace Verif.DupSequence

/-! ### What differs -/

mutual
/-- Trees that are the same, but for what is not compared. -/
def Same : Tree → Tree → Prop
  | .const v, .const v' => v = v'
  | .node c _ never ts, .node c' _ _ ts' => c = c' ∧ never = false ∧ SameAll ts ts'
  | _, _ => False

def SameAll : List Tree → List Tree → Prop
  | [], [] => True
  | t :: ts, t' :: ts' => Same t t' ∧ SameAll ts ts'
  | _, _ => False
end

/-- The type of a value; nothing for integers. -/
def typeOf : Val → Option Str
  | .int _ => none
  | .other t _ => some t

theorem sameType_iff (a b : Val) : sameType a b = true ↔ typeOf a = typeOf b := by
  cases a <;> cases b <;> simp [sameType, typeOf]

mutual
/-- Trees that differ by the constants `a` and `b` in the last leaf, and maybe in ones before it with nothing that is the same after them. -/
def Ends (a b : Val) : Tree → Tree → Prop
  | .const v, .const v' => v = a ∧ v' = b ∧ a ≠ b ∧ typeOf a = typeOf b
  | .node c _ never ts, .node c' _ _ ts' => c = c' ∧ never = false ∧ EndsAll a b ts ts'
  | _, _ => False

/-- Lists with the same beginnings whose ends differ. -/
def EndsAll (a b : Val) : List Tree → List Tree → Prop
  | t :: ts, t' :: ts' => (Same t t' ∧ EndsAll a b ts ts') ∨ (Ends a b t t' ∧ AllEnd a b ts ts')
  | _, _ => False

/-- Lists all of whose elements differ. -/
def AllEnd (a b : Val) : List Tree → List Tree → Prop
  | [], [] => True
  | t :: ts, t' :: ts' => Ends a b t t' ∧ AllEnd a b ts ts'
  | _, _ => False
end

mutual
/-- The path to the last leaf, from it to the root. -/
def lastPath : Tree → List Nat
  | .const _ => []
  | .node _ _ _ ts => lastPathAll 0 ts

def lastPathAll (i : Nat) : List Tree → List Nat
  | [] => []
  | [t] => lastPath t ++ [i]
  | _ :: t :: ts => lastPathAll (i + 1) (t :: ts)
end

mutual
/-- The constant in the last leaf. -/
def lastVal : Tree → Option Val
  | .const v => some v
  | .node _ _ _ ts => lastValAll ts

def lastValAll : List Tree → Option Val
  | [] => none
  | [t] => lastVal t
  | _ :: t :: ts => lastValAll (t :: ts)
end

theorem sameAll_length : ∀ {ts ts' : List Tree}, SameAll ts ts' → ts.length = ts'.length
  | [], [], _ => rfl
  | t :: ts, t' :: ts', h => by
    rw [SameAll] at h
    simp [sameAll_length h.2]
  | [], _ :: _, h => by simp [SameAll] at h
  | _ :: _, [], h => by simp [SameAll] at h

theorem allEnd_length {a b : Val} : ∀ {ts ts' : List Tree}, AllEnd a b ts ts' → ts.length = ts'.length
  | [], [], _ => rfl
  | t :: ts, t' :: ts', h => by
    rw [AllEnd] at h
    simp [allEnd_length h.2]
  | [], _ :: _, h => by simp [AllEnd] at h
  | _ :: _, [], h => by simp [AllEnd] at h

theorem endsAll_length {a b : Val} : ∀ {ts ts' : List Tree}, EndsAll a b ts ts' → ts.length = ts'.length
  | [], [], _ => rfl
  | t :: ts, t' :: ts', h => by
    rw [EndsAll] at h
    rcases h with h | h
    · simp [endsAll_length h.2]
    · simp [allEnd_length h.2]
  | [], _ :: _, h => by simp [EndsAll] at h
  | _ :: _, [], h => by simp [EndsAll] at h

/-- The path after a list each of whose elements differs. -/
def endPath (i : Nat) (p : List Nat) (ts : List Tree) : List Nat := if ts.isEmpty then p else lastPathAll i ts

theorem endPath_cons (i : Nat) (t : Tree) (ts : List Tree) : endPath (i + 1) (lastPath t ++ [i]) ts = lastPathAll i (t :: ts) := by
  cases ts with
  | nil => simp [endPath, lastPathAll]
  | cons u us => simp [endPath, lastPathAll]

mutual
theorem single_sound : ∀ (t t' : Tree) (r : Diff), single t t' = some r →
    (r = none ∧ Same t t') ∨ ∃ a b, r = some ((a, b), lastPath t) ∧ Ends a b t t'
  | .const v, .const v', r, h => by
    rw [single] at h
    split at h
    · cases h
    · rename_i hs
      split at h
      · rename_i he
        cases h
        exact .inl ⟨rfl, by rw [Same]; exact he⟩
      · rename_i hne
        cases h
        exact .inr ⟨v, v', by simp [lastPath], by rw [Ends]; exact ⟨rfl, rfl, hne, (sameType_iff _ _).1 (by simpa using hs)⟩⟩
  | .node c _ never ts, .node c' _ _ ts', r, h => by
    rw [single] at h
    split at h
    · cases h
    · rename_i hc
      simp only [Bool.or_eq_true, decide_eq_true_eq, not_or, Bool.not_eq_true, ne_eq, not_not] at hc
      split at h
      · cases h
      · rename_i hl
        rcases singleList_sound ts ts' 0 r (by simpa using hl) h with ⟨hr, hs⟩ | ⟨a, b, hr, he⟩
        · exact .inl ⟨hr, by rw [Same]; exact ⟨hc.1, hc.2, hs⟩⟩
        · exact .inr ⟨a, b, by simpa [lastPath] using hr, by rw [Ends]; exact ⟨hc.1, hc.2, he⟩⟩
  | .const _, .node _ _ _ _, r, h => by simp [single] at h
  | .node _ _ _ _, .const _, r, h => by simp [single] at h

theorem singleList_sound : ∀ (ts ts' : List Tree) (i : Nat) (r : Diff), ts.length = ts'.length → singleList i none ts ts' = some r →
    (r = none ∧ SameAll ts ts') ∨ ∃ a b, r = some ((a, b), lastPathAll i ts) ∧ EndsAll a b ts ts'
  | [], [], i, r, _, h => by
    simp [singleList] at h
    exact .inl ⟨h.symm, by simp [SameAll]⟩
  | t :: ts, t' :: ts', i, r, hl, h => by
    rw [singleList] at h
    simp only [List.length_cons, Nat.add_right_cancel_iff] at hl
    split at h
    · cases h
    · rename_i sub hsub
      simp only [Option.isSome_none, Bool.false_and, Bool.false_eq_true, if_false] at h
      rcases single_sound t t' sub hsub with ⟨rfl, hs⟩ | ⟨a, b, rfl, he⟩
      · rcases singleList_sound ts ts' (i + 1) r hl h with ⟨hr, hs'⟩ | ⟨a, b, hr, he⟩
        · exact .inl ⟨hr, by rw [SameAll]; exact ⟨hs, hs'⟩⟩
        · refine .inr ⟨a, b, ?_, by rw [EndsAll]; exact .inl ⟨hs, he⟩⟩
          cases ts with
          | nil => cases ts' <;> simp [EndsAll] at he
          | cons u us => simpa [lastPathAll] using hr
      · obtain ⟨hr, ha⟩ := allEnd_sound ts ts' (i + 1) a b _ r hl h
        exact .inr ⟨a, b, by rw [hr, endPath_cons], by rw [EndsAll]; exact .inr ⟨he, ha⟩⟩
  | [], _ :: _, i, r, hl, h => by simp at hl
  | _ :: _, [], i, r, hl, h => by simp at hl

theorem allEnd_sound : ∀ (ts ts' : List Tree) (i : Nat) (a b : Val) (p : List Nat) (r : Diff), ts.length = ts'.length →
    singleList i (some ((a, b), p)) ts ts' = some r → r = some ((a, b), endPath i p ts) ∧ AllEnd a b ts ts'
  | [], [], i, a, b, p, r, _, h => by
    simp [singleList] at h
    exact ⟨by simp [endPath, h], by simp [AllEnd]⟩
  | t :: ts, t' :: ts', i, a, b, p, r, hl, h => by
    rw [singleList] at h
    simp only [List.length_cons, Nat.add_right_cancel_iff] at hl
    split at h
    · cases h
    · rename_i sub hsub
      split at h
      · cases h
      · rename_i hm
        rcases single_sound t t' sub hsub with ⟨rfl, hs⟩ | ⟨a', b', rfl, he⟩
        · simp at hm
        · simp only [Option.isSome_some, Option.map_some, ne_eq, Option.some.injEq, Bool.true_and, decide_eq_true_eq, not_not] at hm
          cases hm
          obtain ⟨hr, ha⟩ := allEnd_sound ts ts' (i + 1) a b _ r hl h
          exact ⟨by rw [hr, endPath_cons]; simp [endPath], by rw [AllEnd]; exact ⟨he, ha⟩⟩
  | [], _ :: _, i, a, b, p, r, hl, h => by simp at hl
  | _ :: _, [], i, a, b, p, r, hl, h => by simp at hl
end

theorem sameType_self (v : Val) : sameType v v = true := by cases v <;> simp [sameType]

mutual
theorem single_same : ∀ (t t' : Tree), Same t t' → single t t' = some none
  | .const v, .const v', h => by
    rw [Same] at h
    simp [single, h, sameType_self]
  | .node c _ never ts, .node c' _ _ ts', h => by
    rw [Same] at h
    simp [single, h.1, h.2.1, sameAll_length h.2.2, singleList_same ts ts' 0 h.2.2]
  | .const _, .node _ _ _ _, h => by simp [Same] at h
  | .node _ _ _ _, .const _, h => by simp [Same] at h

theorem singleList_same : ∀ (ts ts' : List Tree) (i : Nat), SameAll ts ts' → singleList i none ts ts' = some none
  | [], [], i, _ => by simp [singleList]
  | t :: ts, t' :: ts', i, h => by
    rw [SameAll] at h
    simp [singleList, single_same t t' h.1, singleList_same ts ts' (i + 1) h.2]
  | [], _ :: _, i, h => by simp [SameAll] at h
  | _ :: _, [], i, h => by simp [SameAll] at h
end

mutual
theorem single_ends : ∀ (t t' : Tree) (a b : Val), Ends a b t t' → single t t' = some (some ((a, b), lastPath t))
  | .const v, .const v', a, b, h => by
    rw [Ends] at h
    obtain ⟨rfl, rfl, h⟩ := h
    simp [single, h.1, (sameType_iff _ _).2 h.2, lastPath]
  | .node c _ never ts, .node c' _ _ ts', a, b, h => by
    rw [Ends] at h
    simp [single, h.1, h.2.1, endsAll_length h.2.2, singleList_ends ts ts' 0 a b h.2.2, lastPath]
  | .const _, .node _ _ _ _, a, b, h => by simp [Ends] at h
  | .node _ _ _ _, .const _, a, b, h => by simp [Ends] at h

theorem singleList_ends : ∀ (ts ts' : List Tree) (i : Nat) (a b : Val), EndsAll a b ts ts' → singleList i none ts ts' = some (some ((a, b), lastPathAll i ts))
  | [], _, i, a, b, h => by simp [EndsAll] at h
  | _ :: _, [], i, a, b, h => by simp [EndsAll] at h
  | t :: ts, t' :: ts', i, a, b, h => by
    rw [EndsAll] at h
    rcases h with ⟨hs, he⟩ | ⟨he, ha⟩
    · rw [singleList, single_same t t' hs]
      simp only [Option.isSome_none, Bool.false_and, Bool.false_eq_true, if_false]
      rw [singleList_ends ts ts' (i + 1) a b he]
      cases ts with
      | nil => simp [EndsAll] at he
      | cons u us => simp [lastPathAll]
    · rw [singleList, single_ends t t' a b he]
      simp only [Option.isSome_none, Bool.false_and, Bool.false_eq_true, if_false]
      rw [allEnd_complete ts ts' (i + 1) a b _ ha, endPath_cons]

theorem allEnd_complete : ∀ (ts ts' : List Tree) (i : Nat) (a b : Val) (p : List Nat), AllEnd a b ts ts' →
    singleList i (some ((a, b), p)) ts ts' = some (some ((a, b), endPath i p ts))
  | [], [], i, a, b, p, _ => by simp [singleList, endPath]
  | t :: ts, t' :: ts', i, a, b, p, h => by
    rw [AllEnd] at h
    rw [singleList, single_ends t t' a b h.1]
    simp only [Option.isSome_some, Option.map_some, ne_eq, not_true_eq_false, decide_false, Bool.and_false, Bool.false_eq_true, if_false]
    rw [allEnd_complete ts ts' (i + 1) a b _ h.2, endPath_cons]
    simp [endPath]
  | [], _ :: _, i, a, b, p, h => by simp [AllEnd] at h
  | _ :: _, [], i, a, b, p, h => by simp [AllEnd] at h
end

/-- C135: Two subblocks are found to be the same iff they are, but for what is not compared. -/
theorem C135_same (ts ts' : List Tree) : getSingleDiffList ts ts' = some none ↔ SameAll ts ts' := by
  unfold getSingleDiffList
  constructor
  · intro h
    split at h
    · cases h
    · rename_i hl
      rcases singleList_sound ts ts' 0 _ (by simpa using hl) h with ⟨-, hs⟩ | ⟨a, b, hr, -⟩
      · exact hs
      · cases hr
  · intro h
    simp [sameAll_length h, singleList_same ts ts' 0 h]

/-- C135: Two subblocks are found to differ by two values iff they differ by these at their ends. -/
theorem C135_differ (ts ts' : List Tree) (a b : Val) (p : List Nat) :
    getSingleDiffList ts ts' = some (some ((a, b), p)) ↔ EndsAll a b ts ts' ∧ p = lastPathAll 0 ts := by
  unfold getSingleDiffList
  constructor
  · intro h
    split at h
    · cases h
    · rename_i hl
      rcases singleList_sound ts ts' 0 _ (by simpa using hl) h with ⟨hr, -⟩ | ⟨a, b, hr, he⟩
      · cases hr
      · cases hr
        exact ⟨he, rfl⟩
  · rintro ⟨h, rfl⟩
    simp [endsAll_length h, singleList_ends ts ts' 0 a b h]

mutual
theorem same_last : ∀ (t t' : Tree), Same t t' → lastVal t = lastVal t' ∧ lastPath t = lastPath t'
  | .const v, .const v', h => by
    rw [Same] at h
    simp [lastVal, lastPath, h]
  | .node c _ never ts, .node c' _ _ ts', h => by
    rw [Same] at h
    simpa [lastVal, lastPath] using sameAll_last ts ts' 0 h.2.2
  | .const _, .node _ _ _ _, h => by simp [Same] at h
  | .node _ _ _ _, .const _, h => by simp [Same] at h

theorem sameAll_last : ∀ (ts ts' : List Tree) (i : Nat), SameAll ts ts' → lastValAll ts = lastValAll ts' ∧ lastPathAll i ts = lastPathAll i ts'
  | [], [], i, _ => by simp
  | [t], [t'], i, h => by
    rw [SameAll] at h
    have := same_last t t' h.1
    simp [lastValAll, lastPathAll, this]
  | t :: u :: ts, t' :: u' :: ts', i, h => by
    rw [SameAll] at h
    simpa [lastValAll, lastPathAll] using sameAll_last (u :: ts) (u' :: ts') (i + 1) h.2
  | [], _ :: _, i, h => by simp [SameAll] at h
  | _ :: _, [], i, h => by simp [SameAll] at h
  | [_], _ :: _ :: _, i, h => by simp [SameAll] at h
  | _ :: _ :: _, [_], i, h => by simp [SameAll] at h
end

mutual
/-- What differs is the last leaf. -/
theorem ends_last : ∀ (t t' : Tree) (a b : Val), Ends a b t t' → lastVal t = some a ∧ lastVal t' = some b ∧ lastPath t = lastPath t'
  | .const v, .const v', a, b, h => by
    rw [Ends] at h
    simp [lastVal, lastPath, h]
  | .node c _ never ts, .node c' _ _ ts', a, b, h => by
    rw [Ends] at h
    simpa [lastVal, lastPath] using endsAll_last ts ts' 0 a b h.2.2
  | .const _, .node _ _ _ _, a, b, h => by simp [Ends] at h
  | .node _ _ _ _, .const _, a, b, h => by simp [Ends] at h

theorem endsAll_last : ∀ (ts ts' : List Tree) (i : Nat) (a b : Val), EndsAll a b ts ts' →
    lastValAll ts = some a ∧ lastValAll ts' = some b ∧ lastPathAll i ts = lastPathAll i ts'
  | [], _, i, a, b, h => by simp [EndsAll] at h
  | _ :: _, [], i, a, b, h => by simp [EndsAll] at h
  | [t], [t'], i, a, b, h => by
    simp only [EndsAll, and_false, false_or] at h
    have := ends_last t t' a b h.1
    simp [lastValAll, lastPathAll, this]
  | t :: u :: ts, t' :: u' :: ts', i, a, b, h => by
    rw [EndsAll] at h
    rcases h with ⟨-, h⟩ | ⟨-, h⟩
    · simpa [lastValAll, lastPathAll] using endsAll_last (u :: ts) (u' :: ts') (i + 1) a b h
    · simpa [lastValAll, lastPathAll] using allEnd_last (u :: ts) (u' :: ts') (i + 1) a b h (by simp)
  | [_], _ :: _ :: _, i, a, b, h => by simpa using endsAll_length h
  | _ :: _ :: _, [_], i, a, b, h => by simpa using endsAll_length h

theorem allEnd_last : ∀ (ts ts' : List Tree) (i : Nat) (a b : Val), AllEnd a b ts ts' → ts ≠ [] →
    lastValAll ts = some a ∧ lastValAll ts' = some b ∧ lastPathAll i ts = lastPathAll i ts'
  | [], _, i, a, b, _, hn => by simp at hn
  | _ :: _, [], i, a, b, h, _ => by simp [AllEnd] at h
  | [t], [t'], i, a, b, h, _ => by
    simp only [AllEnd] at h
    have := ends_last t t' a b h.1
    simp [lastValAll, lastPathAll, this]
  | t :: u :: ts, t' :: u' :: ts', i, a, b, h, _ => by
    rw [AllEnd] at h
    simpa [lastValAll, lastPathAll] using allEnd_last (u :: ts) (u' :: ts') (i + 1) a b h.2 (by simp)
  | [_], _ :: _ :: _, i, a, b, h, _ => by simpa using allEnd_length h
  | _ :: _ :: _, [_], i, a, b, h, _ => by simpa using allEnd_length h
end

/-- C135: Differences are found just at the ends: the last leaves of both subblocks are the constants that differ. -/
theorem C135_last {ts ts' : List Tree} {a b : Val} {p : List Nat} (h : getSingleDiffList ts ts' = some (some ((a, b), p))) :
    lastValAll ts = some a ∧ lastValAll ts' = some b :=
  have := endsAll_last ts ts' 0 a b ((C135_differ ts ts' a b p).1 h).1
  ⟨this.1, this.2.1⟩

/-! ### Templates -/

/-- Trees with a variable. -/
inductive Template where
  | hole
  | const (v : Val)
  | node (compared : Str) (children : List Template)

mutual
/-- The tree for a value of the variable. -/
def fill (v : Val) : Template → Tree
  | .hole => .const v
  | .const w => .const w
  | .node c ts => .node c [] false (fillAll v ts)

def fillAll (v : Val) : List Template → List Tree
  | [] => []
  | t :: ts => fill v t :: fillAll v ts
end

mutual
/-- The tree with just what is compared. -/
def strip : Tree → Tree
  | .const v => .const v
  | .node c _ _ ts => .node c [] false (stripAll ts)

def stripAll : List Tree → List Tree
  | [] => []
  | t :: ts => strip t :: stripAll ts
end

mutual
/-- The template for two trees: the variable is where constants differ. -/
def template : Tree → Tree → Template
  | .const v, .const v' => if v = v' then .const v else .hole
  | .node c _ _ ts, .node _ _ _ ts' => .node c (templateAll ts ts')
  | _, _ => .hole

def templateAll : List Tree → List Tree → List Template
  | t :: ts, t' :: ts' => template t t' :: templateAll ts ts'
  | _, _ => []
end

mutual
theorem strip_same : ∀ (t t' : Tree), Same t t' → strip t = strip t' ∧ ∀ v, strip t = fill v (template t t')
  | .const v, .const v', h => by
    rw [Same] at h
    simp [strip, template, fill, h]
  | .node c _ never ts, .node c' _ _ ts', h => by
    rw [Same] at h
    obtain ⟨h1, h2⟩ := stripAll_same ts ts' h.2.2
    exact ⟨by simp [strip, h.1, h1], fun v => by simp [strip, template, fill, h2 v]⟩
  | .const _, .node _ _ _ _, h => by simp [Same] at h
  | .node _ _ _ _, .const _, h => by simp [Same] at h

theorem stripAll_same : ∀ (ts ts' : List Tree), SameAll ts ts' → stripAll ts = stripAll ts' ∧ ∀ v, stripAll ts = fillAll v (templateAll ts ts')
  | [], [], _ => by simp [stripAll, templateAll, fillAll]
  | t :: ts, t' :: ts', h => by
    rw [SameAll] at h
    obtain ⟨h1, h2⟩ := strip_same t t' h.1
    obtain ⟨h3, h4⟩ := stripAll_same ts ts' h.2
    exact ⟨by simp [stripAll, h1, h3], fun v => by simp [stripAll, templateAll, fillAll, ← h2 v, ← h4 v]⟩
  | [], _ :: _, h => by simp [SameAll] at h
  | _ :: _, [], h => by simp [SameAll] at h
end

mutual
theorem strip_ends : ∀ (t t' : Tree) (a b : Val), Ends a b t t' → strip t = fill a (template t t') ∧ strip t' = fill b (template t t')
  | .const v, .const v', a, b, h => by
    rw [Ends] at h
    obtain ⟨rfl, rfl, h, -⟩ := h
    simp [strip, template, fill, h]
  | .node c _ never ts, .node c' _ _ ts', a, b, h => by
    rw [Ends] at h
    obtain ⟨h1, h2⟩ := stripAll_ends ts ts' a b h.2.2
    exact ⟨by simp [strip, template, fill, h1], by simp [strip, template, fill, h2, h.1]⟩
  | .const _, .node _ _ _ _, a, b, h => by simp [Ends] at h
  | .node _ _ _ _, .const _, a, b, h => by simp [Ends] at h

theorem stripAll_ends : ∀ (ts ts' : List Tree) (a b : Val), EndsAll a b ts ts' →
    stripAll ts = fillAll a (templateAll ts ts') ∧ stripAll ts' = fillAll b (templateAll ts ts')
  | [], _, a, b, h => by simp [EndsAll] at h
  | _ :: _, [], a, b, h => by simp [EndsAll] at h
  | t :: ts, t' :: ts', a, b, h => by
    rw [EndsAll] at h
    rcases h with ⟨hs, he⟩ | ⟨he, ha⟩
    · obtain ⟨h1, h2⟩ := strip_same t t' hs
      obtain ⟨h3, h4⟩ := stripAll_ends ts ts' a b he
      exact ⟨by simp [stripAll, templateAll, fillAll, ← h2 a, h3], by simp [stripAll, templateAll, fillAll, ← h2 b, ← h1, h4]⟩
    · obtain ⟨h1, h2⟩ := strip_ends t t' a b he
      obtain ⟨h3, h4⟩ := stripAll_allEnd ts ts' a b ha
      exact ⟨by simp [stripAll, templateAll, fillAll, h1, h3], by simp [stripAll, templateAll, fillAll, h2, h4]⟩

theorem stripAll_allEnd : ∀ (ts ts' : List Tree) (a b : Val), AllEnd a b ts ts' →
    stripAll ts = fillAll a (templateAll ts ts') ∧ stripAll ts' = fillAll b (templateAll ts ts')
  | [], [], a, b, _ => by simp [stripAll, templateAll, fillAll]
  | t :: ts, t' :: ts', a, b, h => by
    rw [AllEnd] at h
    obtain ⟨h1, h2⟩ := strip_ends t t' a b h.1
    obtain ⟨h3, h4⟩ := stripAll_allEnd ts ts' a b h.2
    exact ⟨by simp [stripAll, templateAll, fillAll, h1, h3], by simp [stripAll, templateAll, fillAll, h2, h4]⟩
  | [], _ :: _, a, b, h => by simp [AllEnd] at h
  | _ :: _, [], a, b, h => by simp [AllEnd] at h
end

/-! ### Sequences of subblocks -/

/-- Two subblocks after each other in a sequence, and what is said to be the value in the second one. -/
def Link (c c' : List Tree) (o : Option Val) : Prop := (SameAll c c' ∧ o = none) ∨ ∃ a b, EndsAll a b c c' ∧ o = some b

/-- A sequence of subblocks with the values in them but the first one. -/
def Chain : List (List Tree) → List (Option Val) → Prop
  | _ :: _, [] => True
  | c :: c' :: cs, o :: os => Link c c' o ∧ Chain (c' :: cs) os
  | _, _ => False

theorem link_of {c c' : List Tree} {sub : Diff} (h : getSingleDiffList c c' = some sub) : Link c c' (sub.map (·.1.2)) := by
  cases sub with
  | none => exact .inl ⟨(C135_same c c').1 h, rfl⟩
  | some d =>
    obtain ⟨⟨a, b⟩, p⟩ := d
    exact .inr ⟨a, b, ((C135_differ c c' a b p).1 h).1, rfl⟩

theorem seqDiffs_chain : ∀ (rest : List (List Tree)) (c : List Tree) (path : Option (List Nat)) (diffs : List (Option Val)), diffs ≠ [] →
    ∃ os, seqDiffs path diffs (c :: rest) = diffs ++ os ∧ Chain (c :: rest) os
  | [], c, path, diffs, _ => ⟨[], by simp [seqDiffs], by simp [Chain]⟩
  | c' :: rest, c, path, diffs, hd => by
    rw [seqDiffs]
    split
    · exact ⟨[], by simp, by simp [Chain]⟩
    · rename_i sub hsub
      dsimp only
      split
      · exact ⟨[], by simp, by simp [Chain]⟩
      · split
        · exact ⟨[], by simp, by simp [Chain]⟩
        · obtain ⟨os, h1, h2⟩ := seqDiffs_chain rest c' (if path = none || (path = some [] && (sub.map Prod.snd).getD [] ≠ []) then some ((sub.map Prod.snd).getD []) else path)
            (diffs ++ [sub.map (·.1.2)]) (by simp)
          exact ⟨sub.map (·.1.2) :: os, by rw [h1]; simp, by rw [Chain]; exact ⟨link_of hsub, h2⟩⟩

/-- What `get_seq_diffs` returns: nothing, or a value for each of the subblocks. -/
theorem getSeqDiffs_chain (cs : List (List Tree)) (h : seqDiffs none [] cs ≠ []) :
    ∃ c c' rest o o' os, cs = c :: c' :: rest ∧ seqDiffs none [] cs = o :: o' :: os ∧ Link c c' o' ∧ Chain (c' :: rest) os ∧
      ((o = none ∧ o' = none) ∨ ∃ a b, EndsAll a b c c' ∧ o = some a ∧ o' = some b) := by
  match cs, h with
  | [], h => simp [seqDiffs] at h
  | [c], h => simp [seqDiffs] at h
  | c :: c' :: rest, h =>
    rw [seqDiffs] at h ⊢
    split at h
    · simp at h
    · rename_i sub hsub
      simp only [Option.isSome_none, Bool.false_and, Bool.false_eq_true, if_false, reduceCtorEq, decide_false, decide_true, Bool.true_or, if_true]
      obtain ⟨os, h1, h2⟩ := seqDiffs_chain rest c' (some ((sub.map Prod.snd).getD [])) [sub.map (·.1.1), sub.map (·.1.2)] (by simp)
      refine ⟨c, c', rest, _, _, os, rfl, h1, link_of hsub, h2, ?_⟩
      cases sub with
      | none => exact .inl ⟨rfl, rfl⟩
      | some d =>
        obtain ⟨⟨a, b⟩, p⟩ := d
        exact .inr ⟨a, b, ((C135_differ c c' a b p).1 hsub).1, rfl, rfl⟩

theorem chunks_get (len : Nat) (hlen : 0 < len) : ∀ (fuel : Nat) (l : List Tree) (k : Nat), l.length ≤ fuel →
    (chunks len fuel l)[k]? = if k * len < l.length then some ((l.drop (k * len)).take len) else none
  | 0, l, k, h => by
    have : l = [] := List.length_eq_zero_iff.1 (by omega)
    simp [chunks, this]
  | fuel + 1, [], k, h => by simp [chunks]
  | fuel + 1, t :: ts, 0, h => by simp [chunks]
  | fuel + 1, t :: ts, k + 1, h => by
    rw [chunks, List.getElem?_cons_succ, chunks_get len hlen fuel _ k (by simp at h ⊢; omega)]
    have e : (k + 1) * len = len + k * len := by rw [Nat.succ_mul, Nat.add_comm]
    rw [List.drop_drop, List.length_drop, e]
    by_cases hk : len + k * len < (t :: ts).length
    · rw [if_pos hk, if_pos (by omega)]
    · rw [if_neg hk, if_neg (by omega)]

/-- The `k`-th subblock of a given length after `start`. -/
def sub (block : List Tree) (start len k : Nat) : List Tree := (block.drop (start + k * len)).take len

theorem chunks_sub {block : List Tree} {start len k : Nat} (hlen : 0 < len) {c : List Tree} (h : (chunks len block.length (block.drop start))[k]? = some c) :
    c = sub block start len k ∧ start + k * len < block.length := by
  rw [chunks_get len hlen _ _ _ (by simp)] at h
  split at h
  · rename_i hk
    simp only [List.length_drop] at hk
    simp only [Option.some.injEq, List.drop_drop] at h
    exact ⟨h.symm, by omega⟩
  · cases h

theorem chain_get : ∀ (cs : List (List Tree)) (os : List (Option Val)), Chain cs os → ∀ (k : Nat) (o : Option Val), os[k]? = some o →
    ∃ c c', cs[k]? = some c ∧ cs[k + 1]? = some c' ∧ Link c c' o
  | _ :: _, [], _, k, o, h => by simp at h
  | c :: c' :: cs, o :: os, hc, 0, o', h => by
    rw [Chain] at hc
    simp only [List.getElem?_cons_zero, Option.some.injEq] at h
    exact ⟨c, c', rfl, rfl, h ▸ hc.1⟩
  | c :: c' :: cs, o :: os, hc, k + 1, o', h => by
    rw [Chain] at hc
    obtain ⟨d, d', h1, h2, h3⟩ := chain_get (c' :: cs) os hc.2 k o' (by simpa using h)
    exact ⟨d, d', by simpa using h1, by simpa using h2, h3⟩
  | [], [], hc, k, o, h => by simp at h
  | [], _ :: _, hc, k, o, h => by simp [Chain] at hc
  | [_], _ :: _, hc, k, o, h => by simp [Chain] at hc

theorem link_length {c c' : List Tree} {o : Option Val} (h : Link c c' o) : c.length = c'.length := by
  rcases h with ⟨h, -⟩ | ⟨a, b, h, -⟩
  · exact sameAll_length h
  · exact endsAll_length h

/-- What is known of the differences that are found. -/
theorem diffs_spec {block : List Tree} {start len : Nat} (hlen : 0 < len) {os : List (Option Val)} (hos : getSeqDiffs block len start = os) (hne : os ≠ []) :
    2 ≤ os.length ∧ start + os.length * len ≤ block.length ∧
      (∀ k, k + 1 < os.length → ∃ o, os[k + 1]? = some o ∧ Link (sub block start len k) (sub block start len (k + 1)) o) ∧
      ((os[0]? = some none ∧ os[1]? = some none) ∨ ∃ a b, EndsAll a b (sub block start len 0) (sub block start len 1) ∧ os[0]? = some (some a) ∧ os[1]? = some (some b)) := by
  unfold getSeqDiffs at hos
  obtain ⟨c, c', rest, o, o', os', hcs, hd, hl, hch, h0⟩ := getSeqDiffs_chain _ (by rw [hos]; exact hne)
  rw [hos] at hd
  have e0 := chunks_sub (block := block) (start := start) (k := 0) (c := c) hlen (by rw [hcs]; rfl)
  have e1 := chunks_sub (block := block) (start := start) (k := 1) (c := c') hlen (by rw [hcs]; rfl)
  have hlinks : ∀ k, k + 1 < os.length → ∃ o, os[k + 1]? = some o ∧ Link (sub block start len k) (sub block start len (k + 1)) o ∧
      start + (k + 1) * len < block.length := by
    intro k hk
    cases k with
    | zero => exact ⟨o', by rw [hd]; rfl, by rw [← e0.1, ← e1.1]; exact hl, e1.2⟩
    | succ k =>
      have hk' : k < os'.length := by rw [hd] at hk; simpa using hk
      obtain ⟨d, d', h1, h2, h3⟩ := chain_get _ _ hch k os'[k] (List.getElem?_eq_getElem hk')
      have f1 := chunks_sub (block := block) (start := start) (k := k + 1) (c := d) hlen (by rw [hcs]; simpa using h1)
      have f2 := chunks_sub (block := block) (start := start) (k := k + 1 + 1) (c := d') hlen (by rw [hcs]; simpa using h2)
      exact ⟨os'[k], by rw [hd]; simp [hk'], by rw [← f1.1, ← f2.1]; exact h3, f2.2⟩
  have hlens : ∀ k, k < os.length → (sub block start len k).length = len := by
    intro k
    induction k with
    | zero =>
      intro _
      have := e1.2
      simp only [sub, List.length_take, List.length_drop]
      omega
    | succ k ih =>
      intro hk
      obtain ⟨o, -, h, -⟩ := hlinks k hk
      rw [← link_length h, ih (by omega)]
  have h2 : 2 ≤ os.length := by rw [hd]; simp
  refine ⟨h2, ?_, fun k hk => ?_, ?_⟩
  · have := hlens (os.length - 1) (by omega)
    simp only [sub, List.length_take, List.length_drop] at this
    have e : os.length * len = (os.length - 1) * len + len := by
      rw [← Nat.succ_mul]
      congr 1
      omega
    omega
  · obtain ⟨o, h1, h2, -⟩ := hlinks k hk
    exact ⟨o, h1, h2⟩
  · rw [hd, ← e0.1, ← e1.1]
    rcases h0 with ⟨rfl, rfl⟩ | ⟨a, b, he, rfl, rfl⟩
    · exact .inl ⟨rfl, rfl⟩
    · exact .inr ⟨a, b, he, rfl, rfl⟩

/-- The values are those in the last leaves. -/
theorem diffs_val {block : List Tree} {start len : Nat} (hlen : 0 < len) {os : List (Option Val)} (hos : getSeqDiffs block len start = os) {k : Nat} {v : Val}
    (hv : os[k]? = some (some v)) : lastValAll (sub block start len k) = some v := by
  obtain ⟨-, -, hl, h0⟩ := diffs_spec hlen hos (by rintro rfl; simp at hv)
  cases k with
  | zero =>
    rcases h0 with ⟨h, -⟩ | ⟨a, b, he, h, -⟩
    · rw [h] at hv; cases hv
    · rw [h] at hv
      cases hv
      exact (endsAll_last _ _ 0 _ _ he).1
  | succ k =>
    obtain ⟨o, h1, h2⟩ := hl k (by
      by_contra hk
      rw [List.getElem?_eq_none (by omega)] at hv
      cases hv)
    rw [h1] at hv
    cases hv
    rcases h2 with ⟨-, h⟩ | ⟨a, b, he, h⟩
    · cases h
    · cases h
      exact (endsAll_last _ _ 0 _ _ he).2.1

theorem isRange_go : ∀ (os : List (Option Val)) (step a : Int), isRange.go step a os = true → ∀ k < os.length, os[k]? = some (some (.int (a + (k + 1 : Nat) * step)))
  | [], _, _, _, k, hk => by simp at hk
  | o :: os, step, a, h, k, hk => by
    match o, h with
    | some (.int b), h =>
      rw [isRange.go] at h
      simp only [Bool.and_eq_true, decide_eq_true_eq] at h
      cases k with
      | zero => simp [h.1]
      | succ k =>
        rw [List.getElem?_cons_succ, isRange_go os step b h.2 k (by simpa using hk), ← h.1]
        congr 3
        push_cast
        ring
    | some (.other _ _), h => simp [isRange.go] at h
    | none, h => simp [isRange.go] at h

/-- A range: all values are missing, or each one differs by the step from the one before. -/
theorem isRange_spec {os : List (Option Val)} (h : isRange os = true) :
    (∀ o ∈ os, o = none) ∨ ∃ a step, ∀ k < os.length, os[k]? = some (some (.int (a + k * step))) := by
  unfold isRange at h
  split at h
  · rename_i a b rest
    right
    refine ⟨a, b - a, fun k hk => ?_⟩
    match k with
    | 0 => simp
    | 1 => simp
    | k + 2 =>
      rw [List.getElem?_cons_succ, List.getElem?_cons_succ, isRange_go rest (b - a) b h k (by simpa using hk)]
      congr 3
      push_cast
      ring
  · left
    intro o ho
    simpa using List.all_eq_true.1 h o ho

/-! ### What is reported -/

theorem find_spec {block : List Tree} {start : Nat} {r : Report} (h : find block start = some r) :
    r.start = start ∧ 0 < r.len ∧ r.count = (getSeqDiffs block r.len start).length ∧ enough (getSeqDiffs block r.len start) = true := by
  unfold find at h
  have h1 := List.mem_of_find?_eq_some h
  have h2 := List.find?_some h
  simp only [List.mem_map] at h1
  obtain ⟨k, -, rfl⟩ := h1
  exact ⟨rfl, Nat.succ_pos _, rfl, h2⟩

theorem process_spec {block : List Tree} : ∀ (fuel start : Nat) (r : Report), r ∈ process block fuel start → find block r.start = some r ∧ start ≤ r.start
  | 0, _, r, h => by simp [process] at h
  | fuel + 1, start, r, h => by
    rw [process] at h
    split at h
    · split at h
      · rename_i r' hr'
        rcases List.mem_cons.1 h with rfl | h
        · have := (find_spec hr').1
          exact ⟨by rw [this]; exact hr', by omega⟩
        · obtain ⟨h1, h2⟩ := process_spec fuel _ r h
          exact ⟨h1, by omega⟩
      · obtain ⟨h1, h2⟩ := process_spec fuel _ r h
        exact ⟨h1, by omega⟩
    · simp at h

theorem processBlock_spec {block : List Tree} {r : Report} (h : r ∈ processBlock block) : find block r.start = some r := by
  unfold processBlock at h
  split at h
  · simp at h
  · exact (process_spec _ _ r h).1

theorem enough_four {os : List (Option Val)} (h : enough os = true) : 4 ≤ os.length ∧ (os.length = 4 → isRange os = true) := by
  simp only [enough, Bool.or_eq_true, Bool.and_eq_true, decide_eq_true_eq] at h
  refine ⟨by omega, fun h4 => ?_⟩
  rcases h with h | h
  · exact h.2
  · omega

/-- C135: What is reported are at least four subblocks after each other, of the same length; each one is the same as the one before, or differs from it at the end by two
values. If there are just four, all are the same, or the values in their last leaves are those of a range. -/
theorem C135_reported {block : List Tree} {r : Report} (h : r ∈ processBlock block) :
    4 ≤ r.count ∧ 0 < r.len ∧ r.start + r.count * r.len ≤ block.length ∧
      (∀ k, k + 1 < r.count → SameAll (sub block r.start r.len k) (sub block r.start r.len (k + 1)) ∨
        ∃ a b, EndsAll a b (sub block r.start r.len k) (sub block r.start r.len (k + 1))) ∧
      (r.count = 4 → (∀ k, k + 1 < 4 → SameAll (sub block r.start r.len k) (sub block r.start r.len (k + 1))) ∨
        ∃ a step : Int, ∀ k < 4, lastValAll (sub block r.start r.len k) = some (.int (a + k * step))) := by
  obtain ⟨-, h2, h3, h4⟩ := find_spec (processBlock_spec h)
  obtain ⟨h5, h6⟩ := enough_four h4
  have hne : getSeqDiffs block r.len r.start ≠ [] := by intro e; rw [e] at h5; simp at h5
  obtain ⟨-, s2, s3, s4⟩ := diffs_spec h2 rfl hne
  rw [h3]
  refine ⟨h5, h2, s2, fun k hk => ?_, fun h => ?_⟩
  · obtain ⟨o, -, hl⟩ := s3 k hk
    rcases hl with ⟨h, -⟩ | ⟨a, b, h, -⟩
    · exact .inl h
    · exact .inr ⟨a, b, h⟩
  · rcases isRange_spec (h6 h) with hn | ⟨a, step, hr⟩
    · left
      intro k hk
      obtain ⟨o, ho, hl⟩ := s3 k (by omega)
      rcases hl with ⟨h, -⟩ | ⟨a, b, -, h⟩
      · exact h
      · have := hn o (List.mem_of_getElem? ho)
        rw [this] at h; cases h
    · right
      exact ⟨a, step, fun k hk => diffs_val h2 rfl (hr k (by omega))⟩

/-- C135: The subblocks that are reported can be written as a loop, but for what is not compared, if those that differ do so always in the same places: there is a template
and a value for each one, and the values are those of a range if there are just four. -/
theorem C135_template_partial {block : List Tree} {r : Report} (h : r ∈ processBlock block) (T : List Template)
    (hT : ∀ k, k + 1 < r.count → SameAll (sub block r.start r.len k) (sub block r.start r.len (k + 1)) ∨
      templateAll (sub block r.start r.len k) (sub block r.start r.len (k + 1)) = T) :
    ∃ (T' : List Template) (vs : Nat → Val), (∀ k < r.count, stripAll (sub block r.start r.len k) = fillAll (vs k) T') ∧
      (r.count = 4 → ∃ a step : Int, ∀ k < 4, vs k = .int (a + k * step)) := by
  obtain ⟨h1, h2, h3, h4, h5⟩ := C135_reported h
  by_cases hall : ∀ k, k + 1 < r.count → SameAll (sub block r.start r.len k) (sub block r.start r.len (k + 1))
  · refine ⟨templateAll (sub block r.start r.len 0) (sub block r.start r.len 1), fun _ => .int 0, fun k => ?_, fun _ => ⟨0, 0, fun k _ => by simp⟩⟩
    induction k with
    | zero => intro _; exact (stripAll_same _ _ (hall 0 (by omega))).2 _
    | succ k ih => intro hk; rw [← (stripAll_same _ _ (hall k hk)).1, ih (by omega)]
  · push Not at hall
    obtain ⟨j, hj, hn⟩ := hall
    have hstep : ∀ k, k + 1 < r.count →
        (stripAll (sub block r.start r.len k) = fillAll ((lastValAll (sub block r.start r.len k)).getD (.int 0)) T ↔
          stripAll (sub block r.start r.len (k + 1)) = fillAll ((lastValAll (sub block r.start r.len (k + 1))).getD (.int 0)) T) := by
      intro k hk
      by_cases hs : SameAll (sub block r.start r.len k) (sub block r.start r.len (k + 1))
      · rw [(stripAll_same _ _ hs).1, (sameAll_last _ _ 0 hs).1]
      · have ht := (hT k hk).resolve_left hs
        obtain ⟨a, b, he⟩ := (h4 k hk).resolve_left hs
        obtain ⟨p1, p2⟩ := stripAll_ends _ _ _ _ he
        obtain ⟨q1, q2, -⟩ := endsAll_last _ _ 0 _ _ he
        rw [ht] at p1 p2
        rw [p1, p2, q1, q2]
        simp
    have hzero : ∀ k, k < r.count →
        (stripAll (sub block r.start r.len k) = fillAll ((lastValAll (sub block r.start r.len k)).getD (.int 0)) T ↔
          stripAll (sub block r.start r.len 0) = fillAll ((lastValAll (sub block r.start r.len 0)).getD (.int 0)) T) := by
      intro k
      induction k with
      | zero => intro _; exact Iff.rfl
      | succ k ih => intro hk; exact (hstep k hk).symm.trans (ih (by omega))
    have hj' : stripAll (sub block r.start r.len j) = fillAll ((lastValAll (sub block r.start r.len j)).getD (.int 0)) T := by
      have ht := (hT j hj).resolve_left hn
      obtain ⟨a, b, he⟩ := (h4 j hj).resolve_left hn
      rw [(endsAll_last _ _ 0 _ _ he).1, (stripAll_ends _ _ _ _ he).1, ht]
      rfl
    refine ⟨T, fun k => (lastValAll (sub block r.start r.len k)).getD (.int 0), fun k hk => (hzero k hk).2 ((hzero j (by omega)).1 hj'), fun h => ?_⟩
    rcases h5 h with hs | ⟨a, step, hr⟩
    · exact absurd (hs j (by omega)) hn
    · exact ⟨a, step, fun k hk => by simp [hr k hk]⟩

theorem process_disjoint {block : List Tree} : ∀ (fuel start : Nat), (process block fuel start).Pairwise fun r r' => r.start + r.count * r.len ≤ r'.start
  | 0, _ => by simp [process]
  | fuel + 1, start => by
    rw [process]
    split
    · split
      · rename_i r hr
        refine List.pairwise_cons.2 ⟨fun r' hr' => ?_, process_disjoint fuel _⟩
        have := (process_spec _ _ r' hr').2
        rw [(find_spec hr).1]
        exact this
      · exact process_disjoint fuel _
    · simp

/-- C135: What is reported does not overlap. -/
theorem C135_disjoint (block : List Tree) : (processBlock block).Pairwise fun r r' => r.start + r.count * r.len ≤ r'.start := by
  unfold processBlock
  split
  · simp
  · exact process_disjoint _ _

/-! ### What is found -/

theorem lastPathAll_ne : ∀ (ts : List Tree) (i : Nat), ts ≠ [] → lastPathAll i ts ≠ []
  | [], _, h => absurd rfl h
  | [t], i, _ => by simp [lastPathAll]
  | _ :: t :: ts, i, _ => by
    rw [lastPathAll]
    exact lastPathAll_ne (t :: ts) (i + 1) (by simp)

theorem endsAll_path {a b : Val} {c c' : List Tree} (h : EndsAll a b c c') : lastPathAll 0 c ≠ [] ∧ lastPathAll 0 c = lastPathAll 0 c' := by
  refine ⟨lastPathAll_ne _ _ ?_, (endsAll_last _ _ 0 _ _ h).2.2⟩
  rintro rfl
  simp [EndsAll] at h

/-- Subblocks that differ at their ends are collected. -/
theorem seqDiffs_ends : ∀ (m : Nat) (cs : List (List Tree)) (v : Nat → Val) (p : List Nat) (diffs : List (Option Val)), diffs ≠ [] → p ≠ [] →
    (∀ c, cs[0]? = some c → p = lastPathAll 0 c) →
    (∀ k < m, ∃ c c', cs[k]? = some c ∧ cs[k + 1]? = some c' ∧ EndsAll (v k) (v (k + 1)) c c') →
    ∃ os, seqDiffs (some p) diffs cs = diffs ++ (List.range m).map (fun k => some (v (k + 1))) ++ os
  | 0, cs, v, p, diffs, hd, hp, _, _ => by
    match cs with
    | [] => exact ⟨[], by simp [seqDiffs]⟩
    | c :: rest =>
      obtain ⟨os, h, -⟩ := seqDiffs_chain rest c (some p) diffs hd
      exact ⟨os, by simpa using h⟩
  | m + 1, cs, v, p, diffs, hd, hp, hpath, hm => by
    obtain ⟨c, c', h0, h1, he⟩ := hm 0 (by omega)
    match cs, h0, h1, hm, hpath with
    | _ :: _ :: rest, rfl, rfl, hm, hpath =>
      have hpc := hpath c rfl
      obtain ⟨-, hpe⟩ := endsAll_path he
      rw [seqDiffs, (C135_differ c c' (v 0) (v 1) _).2 ⟨he, rfl⟩]
      simp only [Option.map_some, Option.getD_some, ← hpc, Option.some.injEq, hp, ne_eq, not_true_eq_false, decide_false, Bool.and_false, Bool.false_eq_true, if_false,
        Bool.false_and, reduceCtorEq, Bool.or_false, hd]
      obtain ⟨os, hos⟩ := seqDiffs_ends m (c' :: rest) (fun k => v (k + 1)) p (diffs ++ [some (v 1)]) (by simp) hp
        (fun d hd => by simp only [List.getElem?_cons_zero, Option.some.injEq] at hd; rw [← hd, hpc, hpe])
        (fun k hk => by
          obtain ⟨d, d', g1, g2, g3⟩ := hm (k + 1) (by omega)
          exact ⟨d, d', by simpa using g1, by simpa using g2, g3⟩)
      exact ⟨os, by rw [hos, List.range_succ_eq_map]; simp [Function.comp_def]⟩

/-- Subblocks that are the same are collected. -/
theorem seqDiffs_same : ∀ (m : Nat) (cs : List (List Tree)) (diffs : List (Option Val)), diffs ≠ [] →
    (∀ k < m, ∃ c c', cs[k]? = some c ∧ cs[k + 1]? = some c' ∧ SameAll c c') →
    ∃ os, seqDiffs (some []) diffs cs = diffs ++ List.replicate m none ++ os
  | 0, cs, diffs, hd, _ => by
    match cs with
    | [] => exact ⟨[], by simp [seqDiffs]⟩
    | c :: rest =>
      obtain ⟨os, h, -⟩ := seqDiffs_chain rest c (some []) diffs hd
      exact ⟨os, by simpa using h⟩
  | m + 1, cs, diffs, hd, hm => by
    obtain ⟨c, c', h0, h1, he⟩ := hm 0 (by omega)
    match cs, h0, h1, hm with
    | _ :: _ :: rest, rfl, rfl, hm =>
      rw [seqDiffs, (C135_same c c').2 he]
      simp only [Option.map_none, Option.getD_none, ne_eq, not_true_eq_false, decide_false, Bool.and_false, Bool.false_eq_true, if_false,
        Bool.false_and, reduceCtorEq, Bool.or_false, hd]
      obtain ⟨os, hos⟩ := seqDiffs_same m (c' :: rest) (diffs ++ [none]) (by simp)
        (fun k hk => by
          obtain ⟨d, d', g1, g2, g3⟩ := hm (k + 1) (by omega)
          exact ⟨d, d', by simpa using g1, by simpa using g2, g3⟩)
      exact ⟨os, by rw [hos, List.replicate_succ]; simp⟩

theorem isRange_go_of : ∀ (os : List (Option Val)) (step a : Int), (∀ k < os.length, os[k]? = some (some (.int (a + (k + 1 : Nat) * step)))) → isRange.go step a os = true
  | [], _, _, _ => by simp [isRange.go]
  | o :: os, step, a, h => by
    have h0 := h 0 (by simp)
    simp only [List.getElem?_cons_zero, Option.some.injEq] at h0
    subst h0
    rw [isRange.go]
    simp only [Bool.and_eq_true, decide_eq_true_eq]
    refine ⟨by simp, isRange_go_of os step _ fun k hk => ?_⟩
    have := h (k + 1) (by simpa using hk)
    rw [List.getElem?_cons_succ] at this
    rw [this]
    congr 3
    push_cast
    ring

theorem isRange_four {v : Nat → Val} {a step : Int} (h : ∀ k < 4, v k = .int (a + k * step)) : isRange [some (v 0), some (v 1), some (v 2), some (v 3)] = true := by
  have e0 := h 0 (by omega)
  have e1 := h 1 (by omega)
  have e2 := h 2 (by omega)
  have e3 := h 3 (by omega)
  rw [e0, e1, e2, e3]
  simp only [isRange, isRange.go, Bool.and_eq_true, decide_eq_true_eq, Bool.and_true]
  push_cast
  constructor <;> ring

/-- A subblock that is a chunk. -/
theorem sub_chunk {block : List Tree} {start len k : Nat} (hlen : 0 < len) (h : start + k * len < block.length) :
    (chunks len block.length (block.drop start))[k]? = some (sub block start len k) := by
  rw [chunks_get len hlen _ _ _ (by simp), if_pos (by simp; omega), List.drop_drop]
  rfl

theorem enough_ends {block : List Tree} {start len n : Nat} (hlen : 0 < len) (hfit : start + n * len ≤ block.length) (v : Nat → Val)
    (he : ∀ k, k + 1 < n → EndsAll (v k) (v (k + 1)) (sub block start len k) (sub block start len (k + 1)))
    (hn : 5 ≤ n ∨ (n = 4 ∧ ∃ a step : Int, ∀ k < 4, v k = .int (a + k * step))) : enough (getSeqDiffs block len start) = true := by
  have hlt : ∀ k, k < n → start + k * len < block.length := by
    intro k hk
    have : (k + 1) * len ≤ n * len := Nat.mul_le_mul_right _ hk
    rw [Nat.succ_mul] at this
    omega
  obtain ⟨m, rfl⟩ : ∃ m, n = m + 2 := ⟨n - 2, by omega⟩
  have hget : ∀ k, k < m + 2 → (chunks len block.length (block.drop start))[k]? = some (sub block start len k) := fun k hk => sub_chunk hlen (hlt k hk)
  unfold getSeqDiffs
  generalize chunks len block.length (block.drop start) = cs at hget
  have g0 := hget 0 (by omega)
  have g1 := hget 1 (by omega)
  have hos : ∃ os, seqDiffs none [] cs = some (v 0) :: some (v 1) :: ((List.range m).map (fun k => some (v (k + 2))) ++ os) := by
    match cs, g0, g1, hget with
    | c :: c' :: rest, g0, g1, hget =>
      simp only [List.getElem?_cons_zero, List.getElem?_cons_succ, Option.some.injEq] at g0 g1
      have he0 : EndsAll (v 0) (v 1) c c' := by rw [g0, g1]; exact he 0 (by omega)
      obtain ⟨hp, hpe⟩ := endsAll_path he0
      rw [seqDiffs, (C135_differ c c' (v 0) (v 1) _).2 ⟨he0, rfl⟩]
      simp only [Option.isSome_none, Bool.false_and, Bool.false_eq_true, if_false, reduceCtorEq, decide_false, decide_true, Bool.true_or, if_true, Option.map_some,
        Option.getD_some]
      obtain ⟨os, hos⟩ := seqDiffs_ends m (c' :: rest) (fun k => v (k + 1)) (lastPathAll 0 c) [some (v 0), some (v 1)] (by simp) hp
        (fun d hd => by simp only [List.getElem?_cons_zero, Option.some.injEq] at hd; rw [← hd, hpe])
        (fun k hk => ⟨_, _, by simpa using hget (k + 1) (by omega), by simpa using hget (k + 2) (by omega), he (k + 1) (by omega)⟩)
      exact ⟨os, by rw [hos]; simp⟩
  obtain ⟨os, hos⟩ := hos
  rw [hos]
  simp only [enough, Bool.or_eq_true, Bool.and_eq_true, decide_eq_true_eq, List.length_cons, List.length_append, List.length_map, List.length_range]
  rcases hn with hn | ⟨hn, a, step, hr⟩
  · right; omega
  · obtain rfl : m = 2 := by omega
    cases os with
    | nil => left; exact ⟨by simp, by simpa [List.range_succ] using isRange_four hr⟩
    | cons o os => right; simp; omega

theorem enough_same {block : List Tree} {start len : Nat} (hlen : 0 < len) (hfit : start + 4 * len ≤ block.length)
    (hs : ∀ k, k + 1 < 4 → SameAll (sub block start len k) (sub block start len (k + 1))) : enough (getSeqDiffs block len start) = true := by
  have hget : ∀ k, k < 4 → (chunks len block.length (block.drop start))[k]? = some (sub block start len k) := fun k hk => sub_chunk hlen (by
    have : (k + 1) * len ≤ 4 * len := Nat.mul_le_mul_right _ hk
    rw [Nat.succ_mul] at this
    omega)
  unfold getSeqDiffs
  generalize chunks len block.length (block.drop start) = cs at hget
  have g0 := hget 0 (by omega)
  have g1 := hget 1 (by omega)
  have hos : ∃ os, seqDiffs none [] cs = none :: none :: none :: none :: os := by
    match cs, g0, g1, hget with
    | c :: c' :: rest, g0, g1, hget =>
      simp only [List.getElem?_cons_zero, List.getElem?_cons_succ, Option.some.injEq] at g0 g1
      have he0 : SameAll c c' := by rw [g0, g1]; exact hs 0 (by omega)
      rw [seqDiffs, (C135_same c c').2 he0]
      simp only [Option.isSome_none, Bool.false_and, Bool.false_eq_true, if_false, reduceCtorEq, decide_false, decide_true, Bool.true_or, if_true, Option.map_none,
        Option.getD_none]
      obtain ⟨os, hos⟩ := seqDiffs_same 2 (c' :: rest) [none, none] (by simp)
        (fun k hk => ⟨_, _, by simpa using hget (k + 1) (by omega), by simpa using hget (k + 2) (by omega), hs (k + 1) (by omega)⟩)
      exact ⟨os, by rw [hos]; simp [List.replicate]⟩
  obtain ⟨os, hos⟩ := hos
  rw [hos]
  cases os with
  | nil => decide
  | cons o os => simp [enough]

theorem find_of_enough {block : List Tree} {start len : Nat} (hlen : 0 < len) (hl : len ≤ block.length / 4) (h : enough (getSeqDiffs block len start) = true) :
    ∃ r, find block start = some r := by
  unfold find
  rw [← Option.isSome_iff_exists, List.find?_isSome]
  refine ⟨⟨start, len, (getSeqDiffs block len start).length⟩, ?_, h⟩
  simp only [List.mem_map, List.mem_range]
  exact ⟨len - 1, by omega, by rw [Nat.sub_add_cancel hlen]⟩

theorem process_found {block : List Tree} {s : Nat} (hs : s + 1 < block.length) (hf : ∃ r, find block s = some r) : ∀ (fuel start : Nat), start ≤ s →
    s < start + fuel → ∃ r ∈ process block fuel start, r.start ≤ s ∧ s < r.start + r.count * r.len
  | 0, start, h1, h2 => by omega
  | fuel + 1, start, h1, h2 => by
    rw [process, if_pos (by omega)]
    cases hr : find block start with
    | some r =>
      obtain ⟨e1, e2, e3, e4⟩ := find_spec hr
      have hc := (enough_four e4).1
      have hpos : 0 < r.count * r.len := Nat.mul_pos (by omega) e2
      by_cases hlt : s < start + r.count * r.len
      · exact ⟨r, List.mem_cons_self, by omega, by omega⟩
      · obtain ⟨r', hm, h⟩ := process_found hs hf fuel (start + r.count * r.len) (by omega) (by omega)
        exact ⟨r', List.mem_cons_of_mem _ hm, h⟩
    | none =>
      have hne : start ≠ s := by
        rintro rfl
        obtain ⟨r, h⟩ := hf
        rw [hr] at h; cases h
      exact process_found hs hf fuel (start + 1) (by omega) (by omega)

/-- C135: If from some place on there are four subblocks that are the same, or five at least (or four, with values of a range) each of which differs at its end from the one
before, this place is in a sequence that is reported. -/
theorem C135_found {block : List Tree} {s len n : Nat} (hlen : 0 < len) (hn : 4 ≤ n) (hfit : s + n * len ≤ block.length)
    (h : (∀ k, k + 1 < n → SameAll (sub block s len k) (sub block s len (k + 1))) ∨
      ∃ v : Nat → Val, (∀ k, k + 1 < n → EndsAll (v k) (v (k + 1)) (sub block s len k) (sub block s len (k + 1))) ∧
        (5 ≤ n ∨ ∃ a step : Int, ∀ k < 4, v k = .int (a + k * step))) :
    ∃ r ∈ processBlock block, r.start ≤ s ∧ s < r.start + r.count * r.len := by
  have h4 : 4 * len ≤ n * len := Nat.mul_le_mul_right _ hn
  have hen : enough (getSeqDiffs block len s) = true := by
    rcases h with h | ⟨v, he, h⟩
    · exact enough_same hlen (by omega) fun k hk => h k (by omega)
    · by_cases h5 : 5 ≤ n
      · exact enough_ends hlen hfit v he (.inl h5)
      · obtain rfl : n = 4 := by omega
        exact enough_ends hlen hfit v he (.inr ⟨rfl, h.resolve_left h5⟩)
  have hl : len ≤ block.length / 4 := by omega
  unfold processBlock
  rw [if_neg (by omega)]
  exact process_found (by omega) (find_of_enough hlen hl hen) _ 0 (by omega) (by omega)

/-! ### Programs -/

/-- `f(args)` as a statement. -/
def call (f : String) (args : List Tree) : Tree :=
  .node "Expr".toList [] false [.node "Call".toList [] false (.node ("Name ".toList ++ f.toList) [] false [] :: args)]

def int (n : Int) : Tree := .const (.int n)

def name (x : String) : Tree := .node ("Name ".toList ++ x.toList) [] false []

mutual
/-- All constants in a template; nothing for the variable. -/
def leaves : Template → List (Option Val)
  | .hole => [none]
  | .const v => [some v]
  | .node _ ts => leavesAll ts

def leavesAll : List Template → List (Option Val)
  | [] => []
  | t :: ts => leaves t ++ leavesAll ts
end

mutual
/-- All constants in a tree. -/
def consts : Tree → List Val
  | .const v => [v]
  | .node _ _ _ ts => constsAll ts

def constsAll : List Tree → List Val
  | [] => []
  | t :: ts => consts t ++ constsAll ts
end

mutual
theorem consts_fill (v : Val) : ∀ t : Template, consts (fill v t) = (leaves t).map (·.getD v)
  | .hole => by simp [fill, consts, leaves]
  | .const w => by simp [fill, consts, leaves]
  | .node _ ts => by simp [fill, consts, leaves, constsAll_fill v ts]

theorem constsAll_fill (v : Val) : ∀ ts : List Template, constsAll (fillAll v ts) = (leavesAll ts).map (·.getD v)
  | [] => by simp [fillAll, constsAll, leavesAll]
  | t :: ts => by simp [fillAll, constsAll, leavesAll, consts_fill v t, constsAll_fill v ts]
end

/-- `f(1); g(1); f(2); g(2); f(2); g(3); f(2); g(4)` -/
def mixed : List Tree :=
  [call "f" [int 1], call "g" [int 1], call "f" [int 2], call "g" [int 2], call "f" [int 2], call "g" [int 3], call "f" [int 2], call "g" [int 4]]

/-- C135: Sequences are reported that are not repetitions with a value: what differs need not be in the same places. -/
theorem C135_places_counterexample :
    (⟨0, 2, 4⟩ : Report) ∈ processBlock mixed ∧ ¬ ∃ (T : List Template) (vs : Nat → Val), ∀ k < 4, stripAll (sub mixed 0 2 k) = fillAll (vs k) T := by
  refine ⟨by decide +kernel, ?_⟩
  rintro ⟨T, vs, h⟩
  have h0 := congrArg constsAll (h 0 (by omega))
  have h1 := congrArg constsAll (h 1 (by omega))
  have h2 := congrArg constsAll (h 2 (by omega))
  rw [constsAll_fill] at h0 h1 h2
  have e0 : constsAll (stripAll (sub mixed 0 2 0)) = [.int 1, .int 1] := by decide +kernel
  have e1 : constsAll (stripAll (sub mixed 0 2 1)) = [.int 2, .int 2] := by decide +kernel
  have e2 : constsAll (stripAll (sub mixed 0 2 2)) = [.int 2, .int 3] := by decide +kernel
  rw [e0] at h0
  rw [e1] at h1
  rw [e2] at h2
  match leavesAll T, h0, h1, h2 with
  | [some x, o], h0, h1, h2 =>
    simp only [List.map_cons, Option.getD_some, List.cons.injEq] at h0 h1
    rw [← h0.1] at h1
    exact absurd h1.1 (by decide)
  | [none, some y], h0, h1, h2 =>
    simp only [List.map_cons, Option.getD_some, List.cons.injEq] at h0 h1
    rw [← h0.2.1] at h1
    exact absurd h1.2.1 (by decide)
  | [], h0, _, _ => simp at h0
  | [_], h0, _, _ => simp at h0
  | _ :: _ :: _ :: _, h0, _, _ => simp at h0
  | [none, none], h0, h1, h2 =>
    simp only [List.map_cons, Option.getD_none, List.cons.injEq] at h2
    rw [← h2.1] at h2
    exact absurd h2.2.1 (by decide)

/-- C135: Repetitions are not reported if there is something after the value: `f(1, x); f(2, x); …`, though they are if it is the last one: `f(x, 1); f(x, 2); …`. -/
theorem C135_not_last_counterexample :
    processBlock ((List.range 12).map fun (k : Nat) => call "f" [int k, name "x"]) = [] ∧
      processBlock ((List.range 12).map fun (k : Nat) => call "f" [name "x", int k]) = [⟨0, 1, 12⟩] := by
  constructor <;> decide +kernel

/-- `x op= 1` -/
def aug (op : String) : Tree := .node "AugAssign x".toList op.toList false [name "x", int 1]

/-- C135: Operators of augmented assignments are not compared: `x += 1; x -= 1; x *= 1; x //= 1` is said to be a repetition. -/
theorem C135_augmented_counterexample : processBlock [aug "+=", aug "-=", aug "*=", aug "//="] = [⟨0, 1, 4⟩] := by decide +kernel

/-! ### Examples -/

/-- Four calls with a range, five without. -/
example : processBlock [call "f" [int 1], call "f" [int 4], call "f" [int 7], call "f" [int 10]] = [⟨0, 1, 4⟩] := by decide +kernel

example : processBlock [call "f" [int 1], call "f" [int 4], call "f" [int 7], call "f" [int 11]] = [] := by decide +kernel

example : processBlock [call "f" [int 1], call "f" [int 4], call "f" [int 7], call "f" [int 11], call "f" [int 0]] = [⟨0, 1, 5⟩] := by decide +kernel

/-- Subblocks with more statements: a value may be used in each of them. -/
example : processBlock (name "y" :: (List.range 4).flatMap fun (k : Nat) => [call "f" [int k], call "g" [int k]]) = [⟨1, 2, 4⟩] := by decide +kernel

/-- The hypothesis of `C135_found`. -/
example : EndsAll (.int 1) (.int 2) [call "f" [int 1], call "g" [int 1]] [call "f" [int 2], call "g" [int 2]] := by
  simp [EndsAll, AllEnd, call, Ends, Same, SameAll, int, typeOf]

end Verif.DupSequence
