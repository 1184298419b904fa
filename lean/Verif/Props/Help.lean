import Verif.Model.Help
import Verif.Lemmas.Str
import Mathlib.Data.List.Forall2

/-!
C23: wrapping of the help text.
-/

namespace Verif

/-- A line of help: what it starts with and its words. -/
structure HelpLine where
  start : Str
  words : List Str

/-- The text of the line. -/
def HelpLine.text (l : HelpLine) : Str := l.start ++ joinWith [' '] l.words

/-- Each line starts as it should: the first with the name of the option, the others with four spaces. -/
def Starts (start : Str) : List HelpLine → Prop
  | [] => True
  | l :: ls => l.start = start ∧ ∀ m ∈ ls, m.start = "    ".toList

/-- A line ends only where the next word would not fit. -/
def Greedy : List HelpLine → Prop
  | l :: m :: ls => (∃ w ws, m.words = w :: ws ∧ 55 < l.text.length + 1 + w.length) ∧ Greedy (m :: ls)
  | _ => True

theorem joinWith_length_cons (w : Str) (ws : List Str) :
    (joinWith [' '] (w :: ws)).length = w.length + (ws.map (fun v => v.length + 1)).sum := by
  induction ws generalizing w with
  | nil => simp [joinWith]
  | cons v ws ih =>
    rw [joinWith, List.length_append, List.length_append, ih]
    · simp; omega
    · simp

theorem takeWords_spec (maxLen cur : Int) (ws : List Str) :
    (takeWords maxLen cur ws).1 ++ (takeWords maxLen cur ws).2 = ws ∧
    ((takeWords maxLen cur ws).1 ≠ [] →
      cur + (((takeWords maxLen cur ws).1.map (fun v => v.length + 1)).sum : Nat) ≤ maxLen) ∧
    ∀ v vs, (takeWords maxLen cur ws).2 = v :: vs →
      maxLen < cur + (((takeWords maxLen cur ws).1.map (fun v => v.length + 1)).sum : Nat) + 1 + v.length := by
  induction ws generalizing cur with
  | nil => simp [takeWords]
  | cons w ws ih =>
    simp only [takeWords]
    split
    · rename_i h
      refine ⟨rfl, by simp, ?_⟩
      intro v vs hv
      cases hv
      simp only [List.map_nil, List.sum_nil]
      omega
    · rename_i h
      obtain ⟨h1, h2, h3⟩ := ih (cur + 1 + w.length)
      refine ⟨by simp [h1], ?_, ?_⟩
      · intro _
        simp only [List.map_cons, List.sum_cons]
        by_cases hn : (takeWords maxLen (cur + 1 + w.length) ws).1 = []
        · simp only [hn, List.map_nil, List.sum_nil]; omega
        · have := h2 hn; omega
      · intro v vs hv
        have := h3 v vs hv
        simp only [List.map_cons, List.sum_cons]
        omega

/-- The lines of one option. -/
theorem helpLines_spec (start : Str) (words : List Str) :
    ∃ lines : List HelpLine, helpLines start words = lines.map HelpLine.text ∧
      (lines.map (·.words)).flatten = words ∧ Starts start lines ∧ Greedy lines ∧
      ∀ l ∈ lines, l.words ≠ [] ∧ (l.text.length ≤ 55 ∨ ∃ w, l.words = [w]) := by
  induction hn : words.length using Nat.strongRecOn generalizing start words with
  | ind n ih =>
    cases words with
    | nil => exact ⟨[], by simp [helpLines], rfl, trivial, trivial, by simp⟩
    | cons w ws =>
      obtain ⟨h1, h2, h3⟩ := takeWords_spec (80 - 25 - start.length) w.length ws
      have hle := takeWords_rest_le (80 - 25 - start.length) w.length ws
      rw [helpLines]
      generalize takeWords (80 - 25 - (start.length : Int)) w.length ws = tw at h1 h2 h3 hle
      obtain ⟨line, rest⟩ := tw
      simp only at h1 h2 h3 hle
      obtain ⟨lines, k1, k2, k3, k4, k5⟩ := ih rest.length
        (by rw [← hn]; simp only [List.length_cons]; omega) "    ".toList rest rfl
      have hlen : (HelpLine.mk start (w :: line)).text.length =
          start.length + (w.length + (line.map (fun v => v.length + 1)).sum) := by
        rw [HelpLine.text, List.length_append, joinWith_length_cons]
      refine ⟨⟨start, w :: line⟩ :: lines, ?_, ?_, ?_, ?_, ?_⟩
      · simp only [k1, List.map_cons, HelpLine.text]
      · simp [k2, h1]
      · refine ⟨rfl, ?_⟩
        cases lines with
        | nil => simp
        | cons m ms =>
          intro x hx
          rcases List.mem_cons.1 hx with rfl | hx
          · exact k3.1
          · exact k3.2 x hx
      · cases lines with
        | nil => trivial
        | cons m ms =>
          refine ⟨?_, k4⟩
          cases hm : m.words with
          | nil => exact absurd hm (k5 m (by simp)).1
          | cons v vs =>
            refine ⟨v, vs, rfl, ?_⟩
            have hr : rest = v :: (vs ++ (ms.map (·.words)).flatten) := by
              rw [← k2]; simp [hm]
            have := h3 _ _ hr
            rw [hlen]
            omega
      · intro l hl
        rcases List.mem_cons.1 hl with rfl | hl
        · refine ⟨by simp, ?_⟩
          by_cases hn : line = []
          · right; exact ⟨w, by simp [hn]⟩
          · left
            have := h2 hn
            rw [hlen]
            omega
        · exact k5 l hl

/-- **C23.** The help is a sequence of lines, each ended by a line break (the last one by the final one). For
each option, in order, there are lines that contain all words of its description in order: the
first starts with the name of the option, the others with four spaces. No line is longer than 55
characters unless it holds a single word, and a line ends only where the next word would not fit. -/
theorem C23_help (options : List (Str × Str)) :
    ∃ blocks : List (List HelpLine),
      formatOptionsHelp options = joinWith ['\n'] (blocks.flatten.map HelpLine.text) ++ ['\n'] ∧
      List.Forall₂ (fun o lines => joinWith [' '] (lines.map HelpLine.words).flatten = o.2 ∧
        (∀ l ∈ lines, ∀ w ∈ l.words, ' ' ∉ w) ∧ lines ≠ [] ∧
        Starts (o.1 ++ "  ".toList) lines ∧ Greedy lines ∧
        ∀ l ∈ lines, l.words ≠ [] ∧ (l.text.length ≤ 55 ∨ ∃ w, l.words = [w])) options blocks := by
  unfold formatOptionsHelp
  suffices h : ∃ blocks : List (List HelpLine),
      (options.flatMap fun o => helpLines (o.1 ++ "  ".toList) (splitOn ' ' o.2)) = blocks.flatten.map HelpLine.text ∧
      List.Forall₂ (fun o lines => joinWith [' '] (lines.map HelpLine.words).flatten = o.2 ∧
        (∀ l ∈ lines, ∀ w ∈ l.words, ' ' ∉ w) ∧ lines ≠ [] ∧
        Starts (o.1 ++ "  ".toList) lines ∧ Greedy lines ∧
        ∀ l ∈ lines, l.words ≠ [] ∧ (l.text.length ≤ 55 ∨ ∃ w, l.words = [w])) options blocks by
    obtain ⟨blocks, h1, h2⟩ := h
    exact ⟨blocks, by rw [h1], h2⟩
  induction options with
  | nil => exact ⟨[], rfl, .nil⟩
  | cons o os ih =>
    obtain ⟨blocks, h1, h2⟩ := ih
    obtain ⟨lines, k1, k2, k3, k4, k5⟩ := helpLines_spec (o.1 ++ "  ".toList) (splitOn ' ' o.2)
    obtain ⟨s1, s2⟩ := splitOn_spec ' ' o.2
    refine ⟨lines :: blocks, ?_, .cons ⟨by rw [k2, s2], ?_, ?_, k3, k4, k5⟩ h2⟩
    · rw [List.flatMap_cons, h1, k1, List.flatten_cons, List.map_append]
    · intro l hl w hw
      refine s1 w ?_
      rw [← k2, List.mem_flatten]
      exact ⟨l.words, List.mem_map.2 ⟨l, hl, rfl⟩, hw⟩
    · rintro rfl
      exact splitOn_ne_nil _ _ k2.symm

example : String.ofList (formatOptionsHelp
      [("no-flake8".toList, "turn off flake8".toList),
       ("config-file".toList, "config file to use for the linting (packaged name, local path or remote)".toList)])
    = "no-flake8  turn off flake8\nconfig-file  config file to use for the linting\n    (packaged name, local path or remote)\n" := by
  decide +kernel

end Verif
