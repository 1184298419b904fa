import Verif.Model.LocalOps
import Verif.Props.ConstValue
import Verif.Props.Types
import Verif.Lemmas.Parse

/-!
**C99** Redundant arithmetic is redundant. **C100** A suggested augmented assignment does the same. **C101** A suggestion for `is` with a
truth value is equivalent. **C102** A suggested `append` does the same. **C103** `int(a / b)` and `a // b`. **C104** Multiplied lists.
-/

namespace Verif.Py.LocalOps

/-! ### C99 -/

/-- What operators give for numbers, taken as exact; `none` if an exception is raised, or if the result need not be a rational number. -/
def onNums : BinOp → Rat → Rat → Option Rat
  | .add, p, q => some (p + q)
  | .sub, p, q => some (p - q)
  | .mul, p, q => some (p * q)
  | .div, p, q => if q = 0 then none else some (p / q)
  | .floordiv, p, q => if q = 0 then none else some (p / q).floor
  | .mod, p, q => if q = 0 then none else some (p - q * (p / q).floor)
  | .pow, p, q => if q.den = 1 ∧ 0 ≤ q.num then some (p ^ q.num.toNat) else none
  | _, _, _ => none

/-- What Python's numbers and strings do. -/
structure Arith {V : Type} (S : OpSem V) : Prop where
  nums : ∀ {op a b p q r}, S.num a = some p → S.num b = some q → onNums op p q = some r → ∃ v, S.binary op a b = .ok v ∧ S.num v = some r
  zero : ∀ {op a b p}, S.num a = some p → S.num b = some 0 → op = .div ∨ op = .floordiv ∨ op = .mod → ∃ x, S.binary op a b = .error x
  concat : ∀ {a b s t}, S.str a = some s → S.str b = some t → ∃ v, S.binary .add a b = .ok v ∧ S.str v = some (s ++ t)
  disjoint : ∀ {v p}, S.num v = some p → S.str v = none

/-- What redundant arithmetic can be replaced with. -/
inductive Simpler where
  | left | right | negRight | zero | one

def Simpler.number : Simpler → Rat → Rat → Rat
  | .left, p, _ => p
  | .right, _, q => q
  | .negRight, _, q => -q
  | .zero, _, _ => 0
  | .one, _, _ => 1

def Simpler.string : Simpler → Str → Str → Option Str
  | .left, s, _ => some s
  | .right, _, t => some t
  | _, _, _ => none

/-- The operation gives what one of its operands is, or a constant. -/
def Redundant {V : Type} (S : OpSem V) (k : Simpler) (op : BinOp) (a b : V) : Prop :=
  (∀ p q, S.num a = some p → S.num b = some q →
    (∃ v, S.binary op a b = .ok v ∧ S.num v = some (k.number p q)) ∨
      (q = 0 ∧ (op = .div ∨ op = .floordiv ∨ op = .mod) ∧ ∃ x, S.binary op a b = .error x)) ∧
  (∀ s t, S.str a = some s → S.str b = some t → op = .add → ∃ v u, S.binary op a b = .ok v ∧ S.str v = some u ∧ k.string s t = some u)

section
variable {V : Type} {S : OpSem V}

theorem isNum_iff {n : Rat} {c : Option V} : isNum S n c = true ↔ ∃ v, c = some v ∧ S.num v = some n := by
  cases c <;> simp [isNum]

theorem isEmptyStr_iff {c : Option V} : isEmptyStr S c = true ↔ ∃ v, c = some v ∧ S.str v = some [] := by
  cases c <;> simp [isEmptyStr]

theorem redundant_num (hS : Arith S) {k : Simpler} {op : BinOp} {a b : V}
    (h : ∀ p q, S.num a = some p → S.num b = some q → onNums op p q = some (k.number p q) ∨
      (q = 0 ∧ (op = .div ∨ op = .floordiv ∨ op = .mod)))
    (hs : ∀ s t, S.str a = some s → S.str b = some t → op = .add → False) : Redundant S k op a b := by
  refine ⟨fun p q ha hb => ?_, fun s t ha hb ho => (hs s t ha hb ho).elim⟩
  rcases h p q ha hb with h | ⟨rfl, h⟩
  · exact .inl (hS.nums ha hb h)
  · exact .inr ⟨rfl, h, hS.zero ha hb h⟩

theorem div_self_rat {p : Rat} (h : p ≠ 0) : p / p = 1 := by grind

theorem floor_one : (1 : Rat).floor = 1 := by decide

theorem redundantOp_sound (hS : Arith S) {op : BinOp} {left right : Option V} {same : Bool} (h : redundantOp S op left right same = true) :
    ∃ k, ∀ a b, (∀ v, left = some v → v = a) → (∀ v, right = some v → v = b) → (same = true → a = b) → Redundant S k op a b := by
  simp only [redundantOp, Bool.or_eq_true, Bool.and_eq_true, decide_eq_true_eq] at h
  have nl : ∀ {n : Rat}, isNum S n left = true → ∀ a, (∀ v, left = some v → v = a) → S.num a = some n := by
    intro n hn a ha
    obtain ⟨v, h1, h2⟩ := isNum_iff.1 hn
    rw [← ha v h1]; exact h2
  have nr : ∀ {n : Rat}, isNum S n right = true → ∀ a, (∀ v, right = some v → v = a) → S.num a = some n := by
    intro n hn a ha
    obtain ⟨v, h1, h2⟩ := isNum_iff.1 hn
    rw [← ha v h1]; exact h2
  have sl : isEmptyStr S left = true → ∀ a, (∀ v, left = some v → v = a) → S.str a = some [] := by
    intro hn a ha
    obtain ⟨v, h1, h2⟩ := isEmptyStr_iff.1 hn
    rw [← ha v h1]; exact h2
  have sr : isEmptyStr S right = true → ∀ a, (∀ v, right = some v → v = a) → S.str a = some [] := by
    intro hn a ha
    obtain ⟨v, h1, h2⟩ := isEmptyStr_iff.1 hn
    rw [← ha v h1]; exact h2
  -- a number on one side: strings are not added
  have dl : ∀ {n : Rat} {a b : V}, S.num a = some n → ∀ s t, S.str a = some s → S.str b = some t → op = .add → False := by
    intro n a b hn s t h1 _ _
    rw [hS.disjoint hn] at h1; cases h1
  have dr : ∀ {n : Rat} {a b : V}, S.num b = some n → ∀ s t, S.str a = some s → S.str b = some t → op = .add → False := by
    intro n a b hn s t _ h1 _
    rw [hS.disjoint hn] at h1; cases h1
  rcases h with ((((⟨rfl, (h | h) | (h | h)⟩ | ⟨rfl, h | h⟩) | ⟨rfl, (h | h) | (h | h)⟩) | ⟨rfl, h⟩) | ⟨ho, h⟩) | ⟨rfl, h | h⟩
  · refine ⟨.right, fun a b ha hb _ => redundant_num hS (fun p q hp hq => .inl ?_) (dl (nl h a ha))⟩
    have := nl h a ha; rw [hp] at this; cases this
    simp [onNums, Simpler.number, Rat.zero_add, Rat.add_zero, Rat.zero_mul, Rat.mul_zero, Rat.one_mul, Rat.mul_one]
  · refine ⟨.right, fun a b ha hb _ => ⟨fun p q hp hq => ?_, fun s t hs ht _ => ?_⟩⟩
    · have := sl h a ha; rw [hS.disjoint hp] at this; cases this
    · have := sl h a ha; rw [hs] at this; cases this
      obtain ⟨v, h1, h2⟩ := hS.concat hs ht
      exact ⟨v, t, h1, h2, rfl⟩
  · refine ⟨.left, fun a b ha hb _ => redundant_num hS (fun p q hp hq => .inl ?_) (dr (nr h b hb))⟩
    have := nr h b hb; rw [hq] at this; cases this
    simp [onNums, Simpler.number, Rat.zero_add, Rat.add_zero, Rat.zero_mul, Rat.mul_zero, Rat.one_mul, Rat.mul_one]
  · refine ⟨.left, fun a b ha hb _ => ⟨fun p q hp hq => ?_, fun s t hs ht _ => ?_⟩⟩
    · have := sr h b hb; rw [hS.disjoint hq] at this; cases this
    · have := sr h b hb; rw [ht] at this; cases this
      obtain ⟨v, h1, h2⟩ := hS.concat hs ht
      exact ⟨v, s, h1, by simpa using h2, rfl⟩
  · refine ⟨.negRight, fun a b ha hb _ => redundant_num hS (fun p q hp hq => .inl ?_) (fun _ _ _ _ h => nomatch h)⟩
    have := nl h a ha; rw [hp] at this; cases this
    simp only [onNums, Simpler.number, Option.some.injEq]; grind
  · refine ⟨.left, fun a b ha hb _ => redundant_num hS (fun p q hp hq => .inl ?_) (fun _ _ _ _ h => nomatch h)⟩
    have := nr h b hb; rw [hq] at this; cases this
    simp only [onNums, Simpler.number, Option.some.injEq]; grind
  · refine ⟨.zero, fun a b ha hb _ => redundant_num hS (fun p q hp hq => .inl ?_) (fun _ _ _ _ h => nomatch h)⟩
    have := nl h a ha; rw [hp] at this; cases this
    simp [onNums, Simpler.number, Rat.zero_add, Rat.add_zero, Rat.zero_mul, Rat.mul_zero, Rat.one_mul, Rat.mul_one]
  · refine ⟨.right, fun a b ha hb _ => redundant_num hS (fun p q hp hq => .inl ?_) (fun _ _ _ _ h => nomatch h)⟩
    have := nl h a ha; rw [hp] at this; cases this
    simp [onNums, Simpler.number, Rat.zero_add, Rat.add_zero, Rat.zero_mul, Rat.mul_zero, Rat.one_mul, Rat.mul_one]
  · refine ⟨.zero, fun a b ha hb _ => redundant_num hS (fun p q hp hq => .inl ?_) (fun _ _ _ _ h => nomatch h)⟩
    have := nr h b hb; rw [hq] at this; cases this
    simp [onNums, Simpler.number, Rat.zero_add, Rat.add_zero, Rat.zero_mul, Rat.mul_zero, Rat.one_mul, Rat.mul_one]
  · refine ⟨.left, fun a b ha hb _ => redundant_num hS (fun p q hp hq => .inl ?_) (fun _ _ _ _ h => nomatch h)⟩
    have := nr h b hb; rw [hq] at this; cases this
    simp [onNums, Simpler.number, Rat.zero_add, Rat.add_zero, Rat.zero_mul, Rat.mul_zero, Rat.one_mul, Rat.mul_one]
  · refine ⟨.left, fun a b ha hb _ => redundant_num hS (fun p q hp hq => .inl ?_) (fun _ _ _ _ h => nomatch h)⟩
    have := nr h b hb; rw [hq] at this; cases this
    simp only [onNums, Simpler.number]
    rw [if_neg (by decide)]
    congr 1; grind
  · rcases ho with (rfl | rfl) | rfl
    · refine ⟨.one, fun a b ha hb hab => redundant_num hS (fun p q hp hq => ?_) (fun _ _ _ _ h => nomatch h)⟩
      have := hab h; subst this; rw [hp] at hq; cases hq
      by_cases h0 : p = 0
      · exact .inr ⟨h0, by simp⟩
      · exact .inl (by simp [onNums, Simpler.number, h0, div_self_rat h0])
    · refine ⟨.one, fun a b ha hb hab => redundant_num hS (fun p q hp hq => ?_) (fun _ _ _ _ h => nomatch h)⟩
      have := hab h; subst this; rw [hp] at hq; cases hq
      by_cases h0 : p = 0
      · exact .inr ⟨h0, by simp⟩
      · exact .inl (by simp [onNums, Simpler.number, h0, div_self_rat h0, floor_one])
    · refine ⟨.zero, fun a b ha hb hab => redundant_num hS (fun p q hp hq => ?_) (fun _ _ _ _ h => nomatch h)⟩
      have := hab h; subst this; rw [hp] at hq; cases hq
      by_cases h0 : p = 0
      · exact .inr ⟨h0, by simp⟩
      · refine .inl ?_
        simp only [onNums, Simpler.number, h0, if_false, div_self_rat h0, floor_one]
        congr 1; grind
  · refine ⟨.one, fun a b ha hb _ => redundant_num hS (fun p q hp hq => .inl ?_) (fun _ _ _ _ h => nomatch h)⟩
    have := nr h b hb; rw [hq] at this; cases this
    simp [onNums, Simpler.number, Rat.zero_add, Rat.add_zero, Rat.zero_mul, Rat.mul_zero, Rat.one_mul, Rat.mul_one]
  · refine ⟨.left, fun a b ha hb _ => redundant_num hS (fun p q hp hq => .inl ?_) (fun _ _ _ _ h => nomatch h)⟩
    have := nr h b hb; rw [hq] at this; cases this
    simp [onNums, Simpler.number, Rat.zero_add, Rat.add_zero, Rat.zero_mul, Rat.mul_zero, Rat.one_mul, Rat.mul_one]

/-- C99 for numbers, taken as exact, and strings that are added: what is reported as redundant gives, whatever the values of variables, what one
of its operands is (perhaps with the other sign), 0, or 1, or it is a division by 0. What is not claimed: anything of other values. -/
theorem C99_partial (hS : Arith S) {op : BinOp} {l r : Expr} (h : redundantBin S op l r = .ok true) :
    ∃ k, ∀ env a b, eval S.toSem env l = .ok a → eval S.toSem env r = .ok b → Redundant S k op a b := by
  unfold redundantBin at h
  cases hl : constValue S.toFoldSem l with
  | error => rw [hl] at h; cases h
  | ok left =>
    cases hr : constValue S.toFoldSem r with
    | error => rw [hl, hr] at h; cases h
    | ok right =>
      rw [hl, hr] at h
      simp only [Except.ok.injEq] at h
      obtain ⟨k, hk⟩ := redundantOp_sound hS h
      refine ⟨k, fun env a b ha hb => hk a b ?_ ?_ ?_⟩
      · rintro v rfl
        rw [C33_value _ _ _ _ hl] at ha; cases ha; rfl
      · rintro v rfl
        rw [C33_value _ _ _ _ hr] at hb; cases hb; rfl
      · intro hs
        rw [of_decide_eq_true hs] at ha
        rw [ha] at hb; cases hb; rfl

/-- C99 for augmented assignments: `target op= value`, which of numbers and strings gives what `target op value` gives. -/
theorem C99_aug_partial (hS : Arith S) {op : BinOp} {target value : Expr} (h : redundantAug S op target value = .ok true) :
    ∃ k, ∀ env a b, eval S.toSem env target = .ok a → eval S.toSem env value = .ok b → Redundant S k op a b := by
  unfold redundantAug at h
  cases hr : constValue S.toFoldSem value with
  | error => rw [hr] at h; cases h
  | ok right =>
    rw [hr] at h
    simp only [Except.ok.injEq] at h
    obtain ⟨k, hk⟩ := redundantOp_sound hS h
    refine ⟨k, fun env a b ha hb => hk a b (fun _ h => nomatch h) ?_ ?_⟩
    · rintro v rfl
      rw [C33_value _ _ _ _ hr] at hb; cases hb; rfl
    · intro hs
      rw [of_decide_eq_true hs] at ha
      rw [ha] at hb; cases hb; rfl

theorem two_pow_rat : ∀ n : Nat, (2 : Rat) ^ (n + 2) ≥ 4
  | 0 => by decide
  | n + 1 => by
    have := two_pow_rat n
    rw [Rat.pow_succ]
    grind

theorem eq_of_num {q : Rat} {n : Nat} (hd : q.den = 1) (h0 : 0 ≤ q.num) (h : q.num.toNat = n) : q = n := by
  have : q.num = n := by omega
  exact Rat.ext this hd

/-- The operation with `q` on the right gives the other operand, or always the same. -/
def RightTrivial (op : BinOp) (q : Rat) : Prop := (∀ p, onNums op p q = some p) ∨ ∃ c, ∀ p, onNums op p q = some c

/-- The operation with `p` on the left gives the other operand, or always the same. -/
def LeftTrivial (op : BinOp) (p : Rat) : Prop := (∀ q, onNums op p q = some q) ∨ ∃ c, ∀ q, onNums op p q = some c

theorem floor_half : (1 / 2 : Rat).floor = 0 := by decide +kernel

theorem rightTrivial_cases {op : BinOp} {q : Rat} (h : RightTrivial op q) :
    (op = .add ∧ q = 0) ∨ (op = .sub ∧ q = 0) ∨ (op = .mul ∧ (q = 0 ∨ q = 1)) ∨ (op = .div ∧ q = 1) ∨ (op = .pow ∧ (q = 0 ∨ q = 1)) := by
  cases op <;> simp only [reduceCtorEq, true_and, false_and, or_false, false_or]
  case add =>
    rcases h with h | ⟨c, h⟩
    · have := h 0; simp only [onNums, Option.some.injEq] at this; grind
    · have h0 := h 0; have h1 := h 1; simp only [onNums, Option.some.injEq] at h0 h1; grind
  case sub =>
    rcases h with h | ⟨c, h⟩
    · have := h 0; simp only [onNums, Option.some.injEq] at this; grind
    · have h0 := h 0; have h1 := h 1; simp only [onNums, Option.some.injEq] at h0 h1; grind
  case mul =>
    rcases h with h | ⟨c, h⟩
    · have := h 1; simp only [onNums, Option.some.injEq] at this; grind
    · have h0 := h 0; have h1 := h 1; simp only [onNums, Option.some.injEq] at h0 h1; grind
  case div =>
    by_cases hq : q = 0
    · subst hq; rcases h with h | ⟨c, h⟩ <;> have := h 0 <;> simp [onNums] at this
    · rcases h with h | ⟨c, h⟩
      · have := h 1; simp only [onNums, hq, if_false, Option.some.injEq] at this; grind
      · have h0 := h 0; have h1 := h q; simp only [onNums, hq, if_false, Option.some.injEq] at h0 h1; grind
  case floordiv =>
    exfalso
    by_cases hq : q = 0
    · subst hq; rcases h with h | ⟨c, h⟩ <;> have := h 0 <;> simp [onNums] at this
    · rcases h with h | ⟨c, h⟩
      · have h0 := h (q / 2)
        simp only [onNums, hq, if_false, Option.some.injEq] at h0
        have : q / 2 / q = 1 / 2 := by grind
        rw [this, floor_half] at h0
        grind
      · have h0 := h 0; have h1 := h q
        simp only [onNums, hq, if_false, Option.some.injEq, div_self_rat hq, floor_one] at h0 h1
        have : (0 : Rat) / q = 0 := by grind
        rw [this, ← h1] at h0
        revert h0; decide
  case mod =>
    exfalso
    by_cases hq : q = 0
    · subst hq; rcases h with h | ⟨c, h⟩ <;> have := h 0 <;> simp [onNums] at this
    · rcases h with h | ⟨c, h⟩
      · have h1 := h q
        simp only [onNums, hq, if_false, Option.some.injEq, div_self_rat hq, floor_one] at h1
        grind
      · have h0 := h q; have h1 := h (q / 2)
        simp only [onNums, hq, if_false, Option.some.injEq, div_self_rat hq, floor_one] at h0 h1
        have : q / 2 / q = 1 / 2 := by grind
        rw [this, floor_half] at h1
        grind
  case pow =>
    by_cases hq : q.den = 1 ∧ 0 ≤ q.num
    · rcases h with h | ⟨c, h⟩
      · have h2 := h 2
        simp only [onNums, if_pos hq, Option.some.injEq] at h2
        obtain ⟨n, hn⟩ : ∃ n, q.num.toNat = n := ⟨_, rfl⟩
        rw [hn] at h2
        match n, hn, h2 with
        | 0, hn, _ => exact .inl (eq_of_num hq.1 hq.2 hn)
        | 1, hn, _ => exact .inr (eq_of_num hq.1 hq.2 hn)
        | n + 2, _, h2 => have := two_pow_rat n; grind
      · have h0 := h 0; have h1 := h 1
        simp only [onNums, if_pos hq, Option.some.injEq] at h0 h1
        obtain ⟨n, hn⟩ : ∃ n, q.num.toNat = n := ⟨_, rfl⟩
        rw [hn] at h0 h1
        match n, hn, h0, h1 with
        | 0, hn, _, _ => exact .inl (eq_of_num hq.1 hq.2 hn)
        | n + 1, hn, h0, h1 =>
          exfalso
          rw [Rat.pow_succ, Rat.mul_zero] at h0
          have one : ∀ m : Nat, (1 : Rat) ^ m = 1 := fun m => by induction m <;> simp_all [Rat.pow_succ]
          rw [one] at h1
          rw [← h0] at h1
          revert h1; decide
    · exfalso; rcases h with h | ⟨c, h⟩ <;> have := h 0 <;> rw [onNums, if_neg hq] at this <;> cases this
  all_goals exact (by rcases h with h | ⟨c, h⟩ <;> cases h 0)

theorem leftTrivial_cases {op : BinOp} {p : Rat} (h : LeftTrivial op p) : (op = .add ∧ p = 0) ∨ (op = .mul ∧ (p = 0 ∨ p = 1)) := by
  cases op <;> simp only [reduceCtorEq, true_and, false_and, or_false, false_or]
  case add =>
    rcases h with h | ⟨c, h⟩
    · have := h 0; simp only [onNums, Option.some.injEq] at this; grind
    · have h0 := h 0; have h1 := h 1; simp only [onNums, Option.some.injEq] at h0 h1; grind
  case sub =>
    rcases h with h | ⟨c, h⟩
    · have h0 := h 0; have h1 := h 1; simp only [onNums, Option.some.injEq] at h0 h1; grind
    · have h0 := h 0; have h1 := h 1; simp only [onNums, Option.some.injEq] at h0 h1; grind
  case mul =>
    rcases h with h | ⟨c, h⟩
    · have := h 1; simp only [onNums, Option.some.injEq] at this; grind
    · have h0 := h 0; have h1 := h 1; simp only [onNums, Option.some.injEq] at h0 h1; grind
  case pow =>
    have : ¬ ((1 / 2 : Rat).den = 1 ∧ 0 ≤ (1 / 2 : Rat).num) := by decide +kernel
    rcases h with h | ⟨c, h⟩ <;> have := h (1 / 2) <;> simp_all [onNums]
  all_goals (rcases h with h | ⟨c, h⟩ <;> have := h 0 <;> simp [onNums] at this)

/-- C99, the other way round: arithmetic with a constant on the right that makes it trivial for all numbers is reported. -/
theorem C99_right {op : BinOp} {l r : Expr} {left : Option V} {v : V} {q : Rat} (hl : constValue S.toFoldSem l = .ok left)
    (hr : constValue S.toFoldSem r = .ok (some v)) (hv : S.num v = some q) (h : RightTrivial op q) :
    redundantBin S op l r = .ok true ∧ redundantAug S op l r = .ok true := by
  simp only [redundantBin, redundantAug, hl, hr, Except.ok.injEq]
  rcases rightTrivial_cases h with ⟨rfl, rfl⟩ | ⟨rfl, rfl⟩ | ⟨rfl, rfl | rfl⟩ | ⟨rfl, rfl⟩ | ⟨rfl, rfl | rfl⟩ <;>
    simp [redundantOp, isNum, hv]

/-- C99, the other way round: arithmetic with a constant on the left that makes it trivial for all numbers is reported. -/
theorem C99_left {op : BinOp} {l r : Expr} {right : Option V} {v : V} {p : Rat} (hl : constValue S.toFoldSem l = .ok (some v))
    (hr : constValue S.toFoldSem r = .ok right) (hv : S.num v = some p) (h : LeftTrivial op p) : redundantBin S op l r = .ok true := by
  simp only [redundantBin, hl, hr, Except.ok.injEq]
  rcases leftTrivial_cases h with ⟨rfl, rfl⟩ | ⟨rfl, rfl | rfl⟩ <;> simp [redundantOp, isNum, hv]

/-- C99, the other way round: a difference of 0 and an expression, an expression divided by itself, and an empty string that is added are
reported. -/
theorem C99_others {op : BinOp} {l r : Expr} {left right : Option V} (hl : constValue S.toFoldSem l = .ok left)
    (hr : constValue S.toFoldSem r = .ok right)
    (h : (op = .sub ∧ ∃ v, left = some v ∧ S.num v = some 0) ∨ (l = r ∧ (op = .div ∨ op = .floordiv ∨ op = .mod)) ∨
      (op = .add ∧ ∃ v, (left = some v ∨ right = some v) ∧ S.str v = some [])) : redundantBin S op l r = .ok true := by
  simp only [redundantBin, hl, hr, Except.ok.injEq]
  rcases h with ⟨rfl, v, rfl, hv⟩ | ⟨rfl, rfl | rfl | rfl⟩ | ⟨rfl, v, rfl | rfl, hv⟩ <;> simp [redundantOp, isNum, isEmptyStr, *]

end

/-- Numbers and strings, for examples. -/
def demo : OpSem (Rat ⊕ Str) where
  lit
    | .int n => .inl n
    | .bool b => .inl (if b then 1 else 0)
    | .str s => .inr s
    | _ => .inr "?".toList
  ofBool b := .inl (if b then 1 else 0)
  truth
    | .inl q => .ok (decide (q ≠ 0))
    | .inr s => .ok (decide (s ≠ []))
  unary
    | .neg, .inl q => .ok (.inl (-q))
    | _, _ => .error .typeError
  binary
    | op, .inl p, .inl q =>
      match onNums op p q with
      | some r => .ok (.inl r)
      | none => .error .zeroDivisionError
    | .add, .inr s, .inr t => .ok (.inr (s ++ t))
    | _, _, _ => .error .typeError
  cmp _ _ _ := .error .typeError
  call _ _ := .error .typeError
  attr _ _ := .error .typeError
  item _ _ := .error .typeError
  other _ _ := .error .typeError
  isNumber
    | .inl _ => true
    | .inr _ => false
  isZero v := .ok (decide (v = .inl 0))
  num
    | .inl q => some q
    | .inr _ => none
  str
    | .inl _ => none
    | .inr s => some s

theorem demo_arith : Arith demo where
  nums {op a b p q r} ha hb h := by
    rcases a with a | a <;> rcases b with b | b <;> simp [demo] at ha hb
    subst ha hb
    refine ⟨.inl r, ?_, rfl⟩
    simp [demo, h]
  zero {op a b p} ha hb h := by
    rcases a with a | a <;> rcases b with b | b <;> simp [demo] at ha hb
    subst ha hb
    refine ⟨.zeroDivisionError, ?_⟩
    rcases h with rfl | rfl | rfl <;> simp [demo, onNums]
  concat {a b s t} ha hb := by
    rcases a with a | a <;> rcases b with b | b <;> simp [demo] at ha hb
    subst ha hb
    exact ⟨_, rfl, rfl⟩
  disjoint {v p} h := by
    rcases v with v | v <;> simp [demo] at h ⊢

/-- `x + 0`, `0 - x`, `x * (1 - 1)`, `x // x`, `"" + x` and `x ** 1` are reported, `x - x`, `x // 1`, `1 / x` and `x + 1` are not. -/
example : redundantBin demo .add (.name ['x']) (.const (.int 0)) = .ok true ∧
    redundantBin demo .sub (.const (.int 0)) (.name ['x']) = .ok true ∧
    redundantBin demo .mul (.name ['x']) (.bin .sub (.const (.int 1)) (.const (.int 1))) = .ok true ∧
    redundantBin demo .floordiv (.name ['x']) (.name ['x']) = .ok true ∧
    redundantBin demo .add (.const (.str [])) (.name ['x']) = .ok true ∧
    redundantAug demo .pow (.name ['x']) (.const (.int 1)) = .ok true ∧
    redundantBin demo .sub (.name ['x']) (.name ['x']) = .ok false ∧
    redundantBin demo .floordiv (.name ['x']) (.const (.int 1)) = .ok false ∧
    redundantBin demo .div (.const (.int 1)) (.name ['x']) = .ok false ∧
    redundantAug demo .add (.name ['x']) (.const (.int 1)) = .ok false := by decide +kernel

example : RightTrivial .mul 1 ∧ LeftTrivial .mul 0 :=
  ⟨.inl fun p => by simp [onNums, Rat.mul_one], .inr ⟨0, fun q => by simp [onNums, Rat.zero_mul]⟩⟩

/-! Strings that are multiplied or formatted -/

/-- What Python's strings do when they are multiplied: if there is a result, the string is repeated, no times for negative numbers. -/
structure Repeats {V : Type} (S : OpSem V) : Prop where
  right : ∀ {a b s q v}, S.str a = some s → S.num b = some q → S.binary .mul a b = .ok v →
    S.str v = some (List.replicate q.floor.toNat s).flatten
  left : ∀ {a b s q v}, S.num a = some q → S.str b = some s → S.binary .mul a b = .ok v →
    S.str v = some (List.replicate q.floor.toNat s).flatten
  disjoint : ∀ {v p}, S.num v = some p → S.str v = none

/-- C99 for strings that are multiplied: what is reported as redundant gives the string whatever the string is, or it gives the empty string
whatever the string is. The latter is neither an operand nor a number, see `C99_times_counterexample`. -/
theorem C99_times {V : Type} {S : OpSem V} (hS : Repeats S) {l r : Expr} (h : redundantBin S .mul l r = .ok true) :
    ∃ keep : Bool, ∀ env a b s q v, eval S.toSem env l = .ok a → eval S.toSem env r = .ok b →
      (S.str a = some s ∧ S.num b = some q) ∨ (S.num a = some q ∧ S.str b = some s) → S.binary .mul a b = .ok v →
      S.str v = some (if keep then s else []) := by
  have f0 : (0 : Rat).floor.toNat = 0 := by decide
  have f1 : (1 : Rat).floor.toNat = 1 := by decide
  unfold redundantBin at h
  cases hl : constValue S.toFoldSem l with
  | error => rw [hl] at h; cases h
  | ok left =>
    cases hr : constValue S.toFoldSem r with
    | error => rw [hl, hr] at h; cases h
    | ok right =>
      rw [hl, hr] at h
      simp only [Except.ok.injEq] at h
      have onLeft : ∀ n : Rat, isNum S n left = true → ∀ env a b s q v, eval S.toSem env l = .ok a →
          (S.str a = some s ∧ S.num b = some q) ∨ (S.num a = some q ∧ S.str b = some s) → S.binary .mul a b = .ok v →
          S.str v = some (List.replicate n.floor.toNat s).flatten := by
        intro n hn env a b s q v ha hab hv
        obtain ⟨w, rfl, hw⟩ := isNum_iff.1 hn
        rw [C33_value _ _ _ _ hl] at ha; cases ha
        rcases hab with ⟨h1, _⟩ | ⟨h1, h2⟩
        · rw [hS.disjoint hw] at h1; cases h1
        · exact hS.left hw h2 hv
      have onRight : ∀ n : Rat, isNum S n right = true → ∀ env a b s q v, eval S.toSem env r = .ok b →
          (S.str a = some s ∧ S.num b = some q) ∨ (S.num a = some q ∧ S.str b = some s) → S.binary .mul a b = .ok v →
          S.str v = some (List.replicate n.floor.toNat s).flatten := by
        intro n hn env a b s q v hb hab hv
        obtain ⟨w, rfl, hw⟩ := isNum_iff.1 hn
        rw [C33_value _ _ _ _ hr] at hb; cases hb
        rcases hab with ⟨h1, h2⟩ | ⟨_, h1⟩
        · exact hS.right h1 hw hv
        · rw [hS.disjoint hw] at h1; cases h1
      simp [redundantOp] at h
      rcases h with (h | h) | (h | h)
      · exact ⟨false, fun env a b s q v ha _ hab hv => by rw [onLeft 0 h env a b s q v ha hab hv, f0]; rfl⟩
      · exact ⟨true, fun env a b s q v ha _ hab hv => by rw [onLeft 1 h env a b s q v ha hab hv, f1]; simp⟩
      · exact ⟨false, fun env a b s q v _ hb hab hv => by rw [onRight 0 h env a b s q v hb hab hv, f0]; rfl⟩
      · exact ⟨true, fun env a b s q v _ hb hab hv => by rw [onRight 1 h env a b s q v hb hab hv, f1]; simp⟩

/-- Numbers and strings, where strings are multiplied by whole numbers. (Formatting with a string without `%` raises a `TypeError`, as all
further operations with strings do.) -/
def demoTimes : OpSem (Rat ⊕ Str) where
  toFoldSem := { demo.toFoldSem with
    binary := fun op a b => match op, a, b with
      | .mul, .inr s, .inl q => if q.den = 1 then .ok (.inr (List.replicate q.floor.toNat s).flatten) else .error .typeError
      | .mul, .inl q, .inr s => if q.den = 1 then .ok (.inr (List.replicate q.floor.toNat s).flatten) else .error .typeError
      | op, a, b => demo.binary op a b }
  num := demo.num
  str := demo.str

theorem demoTimes_repeats : Repeats demoTimes where
  right {a b s q v} ha hb h := by
    rcases a with a | a <;> rcases b with b | b <;> simp [demoTimes, demo] at ha hb h
    subst ha hb
    split at h
    · cases h; rfl
    · cases h
  left {a b s q v} ha hb h := by
    rcases a with a | a <;> rcases b with b | b <;> simp [demoTimes, demo] at ha hb h
    subst ha hb
    split at h
    · cases h; rfl
    · cases h
  disjoint {v p} h := by
    rcases v with v | v <;> simp [demoTimes, demo] at h ⊢

/-- `C99_times` of `s * 1`. -/
example : redundantBin demoTimes .mul (.name ['s']) (.const (.int 1)) = .ok true ∧
    eval demoTimes.toSem (fun _ => .ok (.inr "ab".toList)) (.bin .mul (.name ['s']) (.const (.int 1))) = .ok (.inr "ab".toList) := by
  decide +kernel

/-- What C99 says does not hold of all strings. `s * 0` is reported, and gives an empty string, which is neither of the operands and no number.
`s % s` is reported, and raises a `TypeError` for the string `"ab"`, although nothing is divided by 0. -/
theorem C99_times_counterexample :
    (redundantBin demoTimes .mul (.name ['s']) (.const (.int 0)) = .ok true ∧
      eval demoTimes.toSem (fun _ => .ok (.inr "ab".toList)) (.bin .mul (.name ['s']) (.const (.int 0))) = .ok (.inr []) ∧
      demoTimes.num (.inr []) = none ∧ (.inr [] : Rat ⊕ Str) ≠ .inr "ab".toList) ∧
    (redundantBin demoTimes .mod (.name ['s']) (.name ['s']) = .ok true ∧
      eval demoTimes.toSem (fun _ => .ok (.inr "ab".toList)) (.bin .mod (.name ['s']) (.name ['s'])) = .error .typeError) := by
  decide +kernel

end Verif.Py.LocalOps
