import Verif.Base.Str

/-!
Splitting and joining texts.
-/

namespace Verif

theorem splitOn_ne_nil (c : Char) (s : Str) : splitOn c s ≠ [] := by
  induction s with
  | nil => simp [splitOn]
  | cons x s ih =>
    simp only [splitOn]
    split
    · simp
    · split <;> simp

theorem splitOn_self {c : Char} {w : Str} (h : c ∉ w) : splitOn c w = [w] := by
  induction w with
  | nil => rfl
  | cons x w ih =>
    have hx : x ≠ c := fun e => h (by simp [e])
    have hw : c ∉ w := fun e => h (by simp [e])
    simp [splitOn, hx, ih hw]

theorem splitOn_append {c : Char} {w : Str} (h : c ∉ w) (s : Str) :
    splitOn c (w ++ c :: s) = w :: splitOn c s := by
  induction w with
  | nil => simp [splitOn]
  | cons x w ih =>
    have hx : x ≠ c := fun e => h (by simp [e])
    have hw : c ∉ w := fun e => h (by simp [e])
    simp [splitOn, hx, ih hw]

theorem not_mem_splitOn {c : Char} {s w : Str} (h : w ∈ splitOn c s) : c ∉ w := by
  induction s generalizing w with
  | nil => simp [splitOn] at h; simp [h]
  | cons x s ih =>
    simp only [splitOn] at h
    split at h
    · rcases List.mem_cons.1 h with rfl | h
      · simp
      · exact ih h
    · rename_i hx
      split at h
      · rename_i hs; exact absurd hs (splitOn_ne_nil c s)
      · rename_i v vs hs
        rw [hs] at ih
        rcases List.mem_cons.1 h with rfl | h
        · have := ih (List.mem_cons_self ..)
          simp only [List.mem_cons, not_or]
          exact ⟨fun e => hx e.symm, this⟩
        · exact ih (List.mem_cons_of_mem _ h)

theorem splitOn_join {c : Char} {ws : List Str} (hne : ws ≠ []) (h : ∀ w ∈ ws, c ∉ w) :
    splitOn c (joinWith [c] ws) = ws := by
  induction ws with
  | nil => exact absurd rfl hne
  | cons w ws ih =>
    cases ws with
    | nil => exact splitOn_self (h w (by simp))
    | cons v vs =>
      have := ih (by simp) fun u hu => h u (by simp [hu])
      simp only [joinWith, List.append_assoc, List.cons_append, List.nil_append]
      rw [splitOn_append (h w (by simp)), this]

theorem splitOn_spec (c : Char) (s : Str) :
    (∀ p ∈ splitOn c s, c ∉ p) ∧ joinWith [c] (splitOn c s) = s := by
  induction s with
  | nil => simp [splitOn, joinWith]
  | cons x s ih =>
    cases hs : splitOn c s with
    | nil => exact absurd hs (splitOn_ne_nil c s)
    | cons a t =>
      rw [hs] at ih
      by_cases h : x = c
      · subst h
        refine ⟨?_, ?_⟩
        · intro p hp
          simp only [splitOn, if_true, hs, List.mem_cons] at hp
          rcases hp with rfl | hp
          · simp
          · exact ih.1 p (List.mem_cons.2 hp)
        · simp only [splitOn, if_true, hs]
          have := ih.2
          simpa [joinWith] using this
      · refine ⟨?_, ?_⟩
        · intro p hp
          simp only [splitOn, h, if_false, hs, List.mem_cons] at hp
          rcases hp with rfl | hp
          · simp [Ne.symm h, ih.1 a (by simp)]
          · exact ih.1 p (List.mem_cons_of_mem _ hp)
        · simp only [splitOn, h, if_false, hs]
          have := ih.2
          cases t with
          | nil => simpa [joinWith] using this
          | cons b t => simpa [joinWith] using this

end Verif
