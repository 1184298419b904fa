import Verif.Lemmas.BoolOps
import Verif.Lemmas.PyInt

/-!
Python's integers are numbers in the sense of `Numbers`.
-/

namespace Verif.Py.BoolOps

/-- `str` of an integer. -/
def shownInt (i : Int) : List Tok := if i < 0 then [UnOp.tok .neg, .lit (.int i.natAbs)] else [.lit (.int i.natAbs)]

/-- Integers, over an arbitrary rest. -/
def intNum (R : FoldSem Val) : NumSem Val where
  toFoldSem := intSem R
  num v := v.asInt.map fun i : Int => (i : Rat)
  isBool
    | .bool _ => true
    | _ => false
  isInt
    | .bool _ => true
    | .int _ => true
    | _ => false
  shown
    | .int i => shownInt i
    | _ => [.bad]

theorem rel_int {op : CmpOp} {a b : Int} {r : Bool} (h : plain op = true) (hr : intCmp op a b = some r) : rel op (a : Rat) (b : Rat) = r := by
  cases op <;> first | (cases h; done) | skip
  all_goals
    simp only [intCmp, Option.some.injEq] at hr
    subst hr
    simp [rel, Rat.intCast_lt_intCast, Rat.intCast_le_intCast, Rat.intCast_inj]

theorem intNum_numbers {R : FoldSem Val} (hR : ∀ n, R.isNumber (.obj n) = false) : Numbers (intNum R) where
  num_of {v} h1 h2 := by
    cases v with
    | int i => exact ⟨i, rfl⟩
    | bool b => cases h2
    | obj n => exact absurd h1 (by rw [show (intNum R).isNumber (.obj n) = R.isNumber (.obj n) from rfl, hR]; decide)
    | _ => cases h1
  cmp {op a b p q} hop ha hb := by
    obtain ⟨i, hi, rfl⟩ := Option.map_eq_some_iff.1 (show a.asInt.map (fun i : Int => (i : Rat)) = some p from ha)
    obtain ⟨j, hj, rfl⟩ := Option.map_eq_some_iff.1 (show b.asInt.map (fun i : Int => (i : Rat)) = some q from hb)
    obtain ⟨r, hr⟩ : ∃ r, intCmp op i j = some r := by cases op <;> first | exact ⟨_, rfl⟩ | cases hop
    rw [rel_int hop hr]
    exact intSem_cmp R hi hj hr
  truth _ := rfl
  lit_bool _ := rfl
  shown {v} h1 h2 := by
    cases v with
    | int i =>
      by_cases h : i < 0
      · refine ⟨.unary .neg (.const (.int i.natAbs)), .int (-(i.natAbs : Int)), ?_, fun env => ?_, ?_⟩
        · show Reads 5 (shownInt i) _
          rw [shownInt, if_pos h]
          exact Reads.mono (.unary (by decide) (Reads.mono (.lit _) (by omega))) (by omega)
        · rfl
        · show some (((-(i.natAbs : Int) : Int)) : Rat) = some (i : Rat)
          rw [show -(i.natAbs : Int) = i by omega]
      · refine ⟨.const (.int i.natAbs), .int (i.natAbs : Int), ?_, fun env => rfl, ?_⟩
        · show Reads 5 (shownInt i) _
          rw [shownInt, if_neg h]
          exact Reads.mono (.lit _) (by omega)
        · show some (((i.natAbs : Int)) : Rat) = some (i : Rat)
          rw [show (i.natAbs : Int) = i by omega]
    | bool b => cases h2
    | obj n => exact absurd h1 (by rw [show (intNum R).isNumber (.obj n) = R.isNumber (.obj n) from rfl, hR]; decide)
    | _ => cases h1

end Verif.Py.BoolOps
