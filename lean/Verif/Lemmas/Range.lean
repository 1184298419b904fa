import Verif.Model.PyInt

/-! The elements of ranges. -/

namespace Verif.Py

/-- `i < n` for the number `n` of elements, in terms of the bounds. -/
theorem lt_rangeLen {start stop step : Int} (h : step ≠ 0) (i : Nat) :
    i < rangeLen start stop step ↔
      (0 < step ∧ start + step * i < stop ∨ step < 0 ∧ stop < start + step * i) := by
  unfold rangeLen
  have key : ∀ d s : Int, 0 < s → (i < ((d + (s - 1)) / s).toNat ↔ s * i < d) := by
    intro d s hs
    have h1 : (i < ((d + (s - 1)) / s).toNat) ↔ ((i : Int) + 1 ≤ (d + (s - 1)) / s) := by omega
    rw [h1, Int.le_ediv_iff_mul_le hs, Int.add_mul, Int.mul_comm s]
    omega
  split
  · rename_i hs
    rw [key _ _ hs]
    constructor
    · intro h; left; exact ⟨hs, by omega⟩
    · rintro (⟨_, h⟩ | ⟨h, _⟩)
      · omega
      · omega
  · rename_i hs
    rw [key _ _ (by omega), Int.neg_mul]
    constructor
    · intro h; right; exact ⟨by omega, by omega⟩
    · rintro (⟨h, _⟩ | ⟨_, h⟩)
      · omega
      · omega

theorem mem_pyRange {start stop step x : Int} (h : step ≠ 0) :
    x ∈ pyRange start stop step ↔
      ∃ i : Nat, x = start + step * i ∧ (0 < step ∧ x < stop ∨ step < 0 ∧ stop < x) := by
  unfold pyRange
  rw [List.mem_map]
  constructor
  · rintro ⟨i, hi, rfl⟩
    exact ⟨i, rfl, (lt_rangeLen h i).1 (List.mem_range.1 hi)⟩
  · rintro ⟨i, rfl, hi⟩
    exact ⟨i, List.mem_range.2 ((lt_rangeLen h i).2 hi), rfl⟩

theorem length_pyRange (start stop step : Int) :
    (pyRange start stop step).length = rangeLen start stop step := by
  simp [pyRange]

/-- Membership by bounds and residue. -/
theorem mem_pyRange_mod {start stop step x : Int} (h : step ≠ 0) :
    x ∈ pyRange start stop step ↔
      (0 < step ∧ start ≤ x ∧ x < stop ∨ step < 0 ∧ stop < x ∧ x ≤ start) ∧
        x.fmod step.natAbs = start.fmod step.natAbs := by
  have hn : (0 : Int) < step.natAbs := by omega
  have hmod : x.fmod step.natAbs = start.fmod step.natAbs ↔ step ∣ x - start := by
    rw [Int.fmod_eq_emod_of_nonneg _ (Int.le_of_lt hn), Int.fmod_eq_emod_of_nonneg _ (Int.le_of_lt hn),
      Int.emod_eq_emod_iff_emod_sub_eq_zero, ← Int.dvd_iff_emod_eq_zero, Int.natAbs_dvd]
  rw [mem_pyRange h, hmod]
  constructor
  · rintro ⟨i, rfl, hb⟩
    refine ⟨?_, i, by omega⟩
    rcases hb with ⟨hs, hb⟩ | ⟨hs, hb⟩
    · have := Int.mul_nonneg (Int.le_of_lt hs) (Int.natCast_nonneg i)
      left; exact ⟨hs, by omega, hb⟩
    · have := Int.mul_nonneg (show 0 ≤ -step by omega) (Int.natCast_nonneg i)
      rw [Int.neg_mul] at this
      right; exact ⟨hs, hb, by omega⟩
  · rintro ⟨hb, k, hk⟩
    have hk0 : 0 ≤ k := by
      rcases hb with ⟨hs, h1, _⟩ | ⟨hs, _, h1⟩
      · have : 0 ≤ step * k := by omega
        exact Int.nonneg_of_mul_nonneg_right this hs
      · have : 0 ≤ (-step) * k := by rw [Int.neg_mul]; omega
        exact Int.nonneg_of_mul_nonneg_right this (by omega)
    refine ⟨k.toNat, ?_, ?_⟩
    · rw [Int.toNat_of_nonneg hk0]; omega
    · rcases hb with ⟨hs, _, h2⟩ | ⟨hs, h2, _⟩
      · exact .inl ⟨hs, h2⟩
      · exact .inr ⟨hs, h2⟩

end Verif.Py
