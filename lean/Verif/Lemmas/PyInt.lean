import Verif.Model.PyInt
import Verif.Lemmas.Range

/-! How the operations of `intSem` compute. -/

namespace Verif.Py

variable (R : FoldSem Val)

@[simp] theorem intSem_lit_int (n : Nat) : (intSem R).lit (.int n) = .int n := rfl
@[simp] theorem intSem_lit_bool (b : Bool) : (intSem R).lit (.bool b) = .bool b := rfl
@[simp] theorem intSem_lit_str (s : Str) : (intSem R).lit (.str s) = .str s := rfl
@[simp] theorem intSem_lit_none : (intSem R).lit .none = .none := rfl
@[simp] theorem intSem_ofBool (b : Bool) : (intSem R).ofBool b = .bool b := rfl
@[simp] theorem intSem_truth_bool (b : Bool) : (intSem R).truth (.bool b) = .ok b := rfl
@[simp] theorem intSem_truth_int (i : Int) : (intSem R).truth (.int i) = .ok (decide (i ≠ 0)) := rfl
@[simp] theorem intSem_isNumber_bool (b : Bool) : (intSem R).isNumber (.bool b) = true := rfl
@[simp] theorem intSem_isNumber_int (i : Int) : (intSem R).isNumber (.int i) = true := rfl

theorem intSem_unary {v : Val} {i : Int} (h : v.asInt = some i) :
    (intSem R).unary .neg v = .ok (.int (-i)) ∧ (intSem R).unary .pos v = .ok (.int i) ∧
      (intSem R).unary .invert v = .ok (.int (-i - 1)) := by
  simp only [intSem, h, and_self]

theorem intSem_binary {op : BinOp} {v w : Val} {a b : Int} {r : Except PyErr Val}
    (hv : v.asInt = some a) (hw : w.asInt = some b) (hr : intBin op a b = some r) :
    (intSem R).binary op v w = r := by
  simp only [intSem, hv, hw, hr]

theorem intSem_cmp {op : CmpOp} {v w : Val} {a b : Int} {r : Bool}
    (hv : v.asInt = some a) (hw : w.asInt = some b) (hr : intCmp op a b = some r) :
    (intSem R).cmp op v w = .ok (.bool r) := by
  simp only [intSem, hv, hw, hr]

theorem intSem_cmp_str {op : CmpOp} {s t : Str} {r : Bool} (hr : strCmp op s t = some r) :
    (intSem R).cmp op (.str s) (.str t) = .ok (.bool r) := by
  simp only [intSem, Val.asInt, hr]

theorem intSem_in {v : Val} {a start stop step : Int} (hv : v.asInt = some a) :
    (intSem R).cmp .isIn v (.range start stop step) = .ok (.bool ((pyRange start stop step).contains a)) ∧
    (intSem R).cmp .notIn v (.range start stop step) =
      .ok (.bool (!(pyRange start stop step).contains a)) := by
  refine ⟨?_, ?_⟩ <;>
  · have h : (Val.range start stop step).asInt = Option.none := rfl
    simp only [intSem, hv, h]

theorem intSem_isZero {v : Val} {i : Int} (h : v.asInt = some i) :
    (intSem R).isZero v = .ok (decide (i = 0)) := by
  simp only [intSem, h]

theorem intSem_call {f : Str} {args : List Val} {r : Except PyErr Val} (h : builtinCall f args = some r) :
    (intSem R).call (.builtin f) args = r := by
  simp only [intSem, h]

end Verif.Py
