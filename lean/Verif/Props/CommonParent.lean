import Verif.Model.CommonParent
import Verif.Props.Repetition

/-!
C149: The nearest node around all holes is found, and repetitions in it are.
-/

namespace Verif.CommonParent

/-- A node is around another one, or it is that one. -/
def Around (p n : Path) : Prop := p ≠ [] ∧ p <:+ n

theorem mem_withAncestors {p : Path} : ∀ {n : Path}, p ∈ withAncestors n ↔ Around p n
  | [] => by
    simp only [withAncestors, List.not_mem_nil, Around, false_iff]
    rintro ⟨h, h'⟩
    exact h (List.suffix_nil.1 h')
  | i :: n => by
    rw [withAncestors, List.mem_cons, mem_withAncestors, Around, Around, List.suffix_cons_iff]
    constructor
    · rintro (rfl | ⟨h, h'⟩)
      · exact ⟨by simp, Or.inl rfl⟩
      · exact ⟨h, Or.inr h'⟩
    · rintro ⟨h, rfl | h'⟩
      · exact Or.inl rfl
      · exact Or.inr ⟨h, h'⟩

/-- The first that is found is around none of the others that there are. -/
theorem find_nearest (c : Path → Bool) : ∀ {n p : Path}, (withAncestors n).find? c = some p → ∀ q, Around q n → c q = true → q <:+ p
  | [], _, h, _, _, _ => by simp [withAncestors] at h
  | i :: n, p, h, q, hq, hc => by
    rw [withAncestors, List.find?_cons] at h
    split at h
    · cases h
      exact hq.2
    · rename_i hi
      have hqn : Around q n := by
        refine ⟨hq.1, ?_⟩
        rcases List.suffix_cons_iff.1 hq.2 with rfl | h'
        · rw [hc] at hi
          exact absurd hi (by simp)
        · exact h'
      exact find_nearest c h q hqn hc

/-- C149: Of two or more holes, the nearest node around all of them is found; nothing just if there is none. -/
theorem C149_nearest (leaf : Path → Bool) (n m : Path) (ns : List Path) : ∃ r, commonParent leaf (n :: m :: ns) = .ok r ∧
    (∀ p, r = some p → (∀ h ∈ n :: m :: ns, Around p h) ∧ ∀ q, (∀ h ∈ n :: m :: ns, Around q h) → q <:+ p) ∧
    (r = none → ¬ ∃ q, ∀ h ∈ n :: m :: ns, Around q h) := by
  have hc : ∀ q : Path, ((m :: ns).all fun n' => decide (q ∈ withAncestors n')) = true ↔ ∀ h ∈ m :: ns, Around q h := by
    intro q
    rw [List.all_eq_true]
    exact forall₂_congr fun h _ => by rw [decide_eq_true_iff, mem_withAncestors]
  refine ⟨_, rfl, fun p hp => ?_, fun hn => ?_⟩
  · refine ⟨fun h hh => ?_, fun q hq => find_nearest _ hp q (hq n (by simp)) ((hc q).2 fun h hh => hq h (List.mem_cons_of_mem _ hh))⟩
    rcases List.mem_cons.1 hh with rfl | hh
    · exact mem_withAncestors.1 (List.mem_of_find?_eq_some hp)
    · exact (hc p).1 (List.find?_some (p := fun q => (m :: ns).all fun n' => decide (q ∈ withAncestors n')) hp) h hh
  · rintro ⟨q, hq⟩
    rw [List.find?_eq_none] at hn
    exact hn q (mem_withAncestors.2 (hq n (by simp))) ((hc q).2 fun h hh => hq h (List.mem_cons_of_mem _ hh))

/-- C149: For one hole, it is the nearest node around it that is neither a constant nor a name, if constants and names are around holes only. -/
theorem C149_one {leaf : Path → Bool} {hole : Path} (hl : 3 ≤ hole.length) (hleaf : ∀ i p, leaf (i :: p) = true → leaf p = false) : ∃ p,
    commonParent leaf [hole] = .ok (some p) ∧ Around p hole ∧ p ≠ hole ∧ leaf p = false ∧ ∀ q, Around q hole → q ≠ hole → leaf q = false → q <:+ p := by
  match hole, hl with
  | i :: j :: k :: t, _ =>
    simp only [commonParent, toParent, List.tail_cons]
    cases hj : leaf (j :: k :: t) with
    | false =>
      refine ⟨j :: k :: t, by simp, ⟨by simp, List.suffix_cons _ _⟩, by simp, hj, fun q hq hne _ => ?_⟩
      rcases List.suffix_cons_iff.1 hq.2 with rfl | h
      · exact absurd rfl hne
      · exact h
    | true =>
      refine ⟨k :: t, by simp, ⟨by simp, (List.suffix_cons _ _).trans (List.suffix_cons _ _)⟩, ?_, hleaf _ _ hj, fun q hq hne hf => ?_⟩
      · intro h
        have := congrArg List.length h
        simp at this
      · rcases List.suffix_cons_iff.1 hq.2 with rfl | h
        · exact absurd rfl hne
        · rcases List.suffix_cons_iff.1 h with rfl | h
          · rw [hj] at hf
            exact absurd hf (by simp)
          · exact h

/-- C149: A body counts as repetition just if it has at least three parts, and starts with two or more pieces of the same length that can be made one. -/
theorem C149_body {σ : Type} (candidate unifies : List (List σ) → Bool) (body : List σ) : bodyRepeats candidate unifies body = true ↔
    3 ≤ body.length ∧ ∃ (parts : List (List σ)) (rest : List σ) (len : Nat), body = parts.flatten ++ rest ∧ 2 ≤ parts.length ∧ 0 < len ∧ (∀ p ∈ parts, p.length = len) ∧
      candidate parts = true ∧ unifies parts = true := by
  unfold bodyRepeats
  by_cases h3 : body.length < 3
  · rw [if_pos h3]
    constructor
    · intro h
      simp at h
    · rintro ⟨h, _⟩
      omega
  · rw [if_neg h3, List.any_eq_true]
    constructor
    · rintro ⟨⟨n, parts⟩, hm, hc⟩
      simp only [Bool.and_eq_true] at hc
      obtain ⟨h1, h2, h4, len, h5, h6, h7⟩ := (Py.C39_splits body n parts).1 hm
      exact ⟨by omega, parts, body.drop n, len, by rw [h4, List.take_append_drop], h1, h5, h7, hc.1, hc.2⟩
    · rintro ⟨_, parts, rest, len, hb, h1, h5, h7, hc, hu⟩
      have hlen : parts.flatten.length = len * parts.length := by
        clear hb h1 hc hu
        induction parts with
        | nil => simp
        | cons p ps ih =>
          rw [List.flatten_cons, List.length_append, ih fun q hq => h7 q (List.mem_cons_of_mem _ hq), h7 p (by simp), List.length_cons, Nat.mul_succ]
          omega
      refine ⟨(len * parts.length, parts), (Py.C39_splits body _ parts).2 ⟨h1, ?_, ?_, len, h5, rfl, h7⟩, by simp [hc, hu]⟩
      · rw [hb, List.length_append]
        omega
      · rw [hb, ← hlen, List.take_left']
        rfl

/-- C149: If no node is around all holes, the first branch is looked at; if the nearest one is a list, a tuple, a dictionary or a set, its elements are; nothing is otherwise. -/
theorem C149_core {σ : Type} (candidate unifies : List (List σ) → Bool) (leaf display : Path → Bool) (first : List σ) (elements : Path → List σ) {holes : List Path}
    {r : Option Path} (h : commonParent leaf holes = .ok r) :
    coreRepeats candidate unifies leaf display first elements holes = .ok true ↔
      (r = none ∧ bodyRepeats candidate unifies first = true) ∨ ∃ p, r = some p ∧ display p = true ∧ bodyRepeats candidate unifies (elements p) = true := by
  unfold coreRepeats
  rw [h]
  cases r <;> simp

/-! ### Examples and counterexamples -/

/-- `f(1, [2, g(3)])`: 2 and 3 are in the list, which is the argument with number 1 of the call, the expression of the first statement. -/
example : commonParent (fun _ => false) [[0, 1, 0, 0], [0, 1, 1, 0, 0]] = .ok (some [1, 0, 0]) ∧ commonParent (fun _ => false) [[0, 0, 0], [0, 1, 0, 0]] = .ok (some [0, 0]) ∧
    commonParent (fun _ => false) [[0, 0], [0, 1]] = .ok none := by decide +kernel

/-- In a constant, in a list. -/
example : commonParent (fun p => p = [2, 1, 0]) [[0, 2, 1, 0]] = .ok (some [1, 0]) := by decide +kernel

example : bodyRepeats (fun _ => true) (fun parts => match parts with | p :: ps => ps.all fun q => q = p | [] => false) [1, 2, 1, 2, 3] = true := by decide +kernel

/-- Repetitions are looked for at the start only: what comes after something else is not found. -/
theorem C149_start_counterexample :
    bodyRepeats (fun _ => true) (fun parts => match parts with | p :: ps => ps.all fun q => q = p | [] => false) [3, 1, 2, 1, 2] = false := by decide +kernel

end Verif.CommonParent
