import Verif.Model.IndexLoop
import Verif.Props.LocalDefects

/-!
C165: loops that are taken for loops over indices.
-/

namespace Verif.Py

section
variable {R : FoldSem Val} {equal : Str → Nat → Bool} {bound : Str → Bool}

theorem forRangeLen_some {iter x : Expr} (h : forRangeLen equal bound iter = some x) :
    ∃ a c, rangeParams iter = some (.const a, .call (.name "len".toList) [x], .const c) ∧ litIs equal 0 a = true ∧ litIs equal 1 c = true ∧
      bound "len".toList = false := by
  unfold forRangeLen at h
  split at h
  · rename_i a f y c hr
    split at h
    · rename_i hc
      cases h
      simp only [Bool.and_eq_true, decide_eq_true_eq, Bool.not_eq_true'] at hc
      obtain ⟨⟨h1, h2, rfl⟩, h3⟩ := hc
      exact ⟨a, c, hr, h1, h3, h2⟩
    · cases h
  · cases h

theorem indexLoop_some {target iter x : Expr} {y i : Str} (h : indexLoop equal bound target iter = some (x, y, i)) :
    forRangeLen equal bound iter = some x ∧ stripToName x = some y ∧ target = .name i ∧ bound y = true ∧ bound i = true := by
  unfold indexLoop at h
  cases hf : forRangeLen equal bound iter with
  | none => rw [hf] at h; cases h
  | some z =>
    rw [hf] at h
    simp only at h
    split at h
    · cases hs : stripToName z with
      | none => rw [hs] at h; cases h
      | some w =>
        rw [hs] at h
        simp only at h
        cases target with
        | name j =>
          simp only at h
          split at h
          · rename_i hb
            cases h
            simp only [Bool.and_eq_true] at hb
            exact ⟨rfl, hs, rfl, hb.1, hb.2⟩
          · cases h
        | _ => cases h
    · cases h

theorem pyRange_indices (n : Nat) : pyRange 0 n 1 = (List.range n).map fun k : Nat => (k : Int) := by
  simp [pyRange, rangeLen]

/-- An argument of `range` that is among its parameters. -/
theorem range_args {env : Env Val} {iter a b c : Expr} {v : Val} (hb : Builtins env) (hr : rangeParams iter = some (a, b, c))
    (h : eval (intSem R).toSem env iter = .ok v) :
    ∃ vs, (intSem R).call (.builtin "range".toList) vs = .ok v ∧
      ∀ e u, (e = a ∧ a ≠ .const (.int 0) ∨ e = c ∧ c ≠ .const (.int 1)) → eval (intSem R).toSem env e = .ok u → u ∈ vs := by
  unfold rangeParams at hr
  split at hr
  · rename_i f args
    split at hr
    · rename_i hf
      subst hf
      rw [eval] at h
      have hrg : eval (intSem R).toSem env (.name "range".toList) = .ok (.builtin "range".toList) := by
        rw [eval]; exact builtins_range hb
      rw [hrg] at h
      simp only at h
      cases hv : evalAll (intSem R).toSem env args with
      | error x => rw [hv] at h; cases h
      | ok vs =>
        rw [hv] at h
        refine ⟨vs, h, ?_⟩
        have hmem : ∀ (es : List Expr) vs, evalAll (intSem R).toSem env es = .ok vs →
            ∀ e ∈ es, ∀ u, eval (intSem R).toSem env e = .ok u → u ∈ vs := by
          intro es
          induction es with
          | nil => intro vs _ e he; cases he
          | cons e es ih =>
            intro vs hvs f hf u hu
            rw [evalAll] at hvs
            cases he : eval (intSem R).toSem env e with
            | error y => simp [he] at hvs
            | ok w =>
              cases hes : evalAll (intSem R).toSem env es with
              | error y => simp [he, hes] at hvs
              | ok ws =>
                simp only [he, hes] at hvs
                cases hvs
                rcases List.mem_cons.1 hf with rfl | hf
                · rw [he] at hu; cases hu; exact List.mem_cons_self
                · exact List.mem_cons_of_mem _ (ih ws hes f hf u hu)
        have hm := hmem args vs hv
        split at hr
        · cases hr
          rintro e u (⟨_, h⟩ | ⟨_, h⟩) <;> exact absurd rfl h
        · cases hr
          rintro e u (⟨rfl, _⟩ | ⟨_, h⟩) hu
          · exact hm _ (by simp) u hu
          · exact absurd rfl h
        · cases hr
          rintro e u (⟨rfl, _⟩ | ⟨rfl, _⟩) hu <;> exact hm _ (by simp) u hu
        · cases hr
    · cases hr
  · cases hr

/-- A literal that is equal to a number and is accepted by `range` is an integer. -/
theorem litIs_int {env : Env Val} {n : Nat} {l : Lit} {vs : List Val} (hl : litIs equal n l = true)
    (hm : l ≠ .int n → (intSem R).lit l ∈ vs) {v : Val} (hv : (intSem R).call (.builtin "range".toList) vs = .ok v)
    (hfl : ∀ t vs u, (R.lit (.float t) ∈ vs ∨ R.lit (.other t) ∈ vs) → (intSem R).call (.builtin "range".toList) vs ≠ .ok u) :
    ∃ u, eval (intSem R).toSem env (.const l) = .ok u ∧ u.asInt = some n := by
  cases l with
  | none => cases hl
  | str s => cases hl
  | int m =>
    simp only [litIs, decide_eq_true_eq] at hl
    exact ⟨.int m, by simp [eval], by rw [hl]; rfl⟩
  | bool b =>
    simp only [litIs, decide_eq_true_eq] at hl
    refine ⟨.bool b, by simp [eval], ?_⟩
    cases b <;> simp at hl <;> subst hl <;> rfl
  | float t => exact absurd hv (hfl t vs v (.inl (hm (fun h => nomatch h))))
  | other t => exact absurd hv (hfl t vs v (.inr (hm (fun h => nomatch h))))

/-- **C165** (partial). What a loop that is taken for one over the indices of a structure goes through is `0`, `1`, … up to the length of the
structure: where `range` is the builtin function, which refuses numbers that are not integers, names without variables are builtin functions, and
`len` gives a number that is not negative. Missing: `range` that is a variable, see below. -/
theorem C165_partial {env : Env Val} {target iter x : Expr} {y i : Str} {v : Val} (hb : Builtins env)
    (hl : bound "len".toList = false → env "len".toList = .ok (.builtin "len".toList))
    (hlen : ∀ w u, (intSem R).call (.builtin "len".toList) [w] = .ok u → ∃ n : Nat, u = .int n)
    (hfl : ∀ t vs u, (R.lit (.float t) ∈ vs ∨ R.lit (.other t) ∈ vs) → (intSem R).call (.builtin "range".toList) vs ≠ .ok u)
    (h : indexLoop equal bound target iter = some (x, y, i)) (he : eval (intSem R).toSem env iter = .ok v) :
    ∃ w, ∃ n : Nat, eval (intSem R).toSem env x = .ok w ∧ (intSem R).call (.builtin "len".toList) [w] = .ok (.int n) ∧
      v = .range 0 n 1 ∧ pyRange 0 n 1 = (List.range n).map fun k : Nat => (k : Int) := by
  obtain ⟨hf, -, -, -, -⟩ := indexLoop_some h
  obtain ⟨a, c, hr, ha, hc, hn⟩ := forRangeLen_some hf
  obtain ⟨vs, hcall, hm⟩ := range_args hb hr he
  obtain ⟨ua, hua, hia⟩ := litIs_int (env := env) ha (fun hne => hm (.const a) _ (.inl ⟨rfl, fun h => hne (by cases h; rfl)⟩) (by simp [eval])) hcall hfl
  obtain ⟨uc, huc, hic⟩ := litIs_int (env := env) hc (fun hne => hm (.const c) _ (.inr ⟨rfl, fun h => hne (by cases h; rfl)⟩) (by simp [eval])) hcall hfl
  have hne := (eval_range_error R hr he).2.1
  cases hs : eval (intSem R).toSem env (.call (.name "len".toList) [x]) with
  | error e => exact absurd hs (hne e)
  | ok u =>
    have hs' := hs
    rw [eval] at hs'
    have hlf : eval (intSem R).toSem env (.name "len".toList) = .ok (.builtin "len".toList) := by rw [eval]; exact hl hn
    rw [hlf] at hs'
    simp only [evalAll] at hs'
    cases hx : eval (intSem R).toSem env x with
    | error e => simp [hx] at hs'
    | ok w =>
      simp only [hx] at hs'
      obtain ⟨n, rfl⟩ := hlen w u hs'
      have := eval_range R hb hr hua hia hs rfl huc hic
      rw [he] at this
      refine ⟨w, n, rfl, hs', ?_, pyRange_indices n⟩
      simpa using this

/-- **C165**, the other way round: every `for i in range(len(x))` with variables `i` and `x` is taken for one, also if `x` is an attribute or an item, and if `0` and
`1` are written. -/
theorem C165_all (x : Expr) (y i : Str) (hx : stripToName x = some y) (hy : bound y = true) (hi : bound i = true) (hl : bound "len".toList = false) :
    let len := Expr.call (.name "len".toList) [x]
    ∀ args ∈ [[len], [.const (.int 0), len], [.const (.int 0), len, .const (.int 1)]],
      indexLoop equal bound (.name i) (.call (.name "range".toList) args) = some (x, y, i) := by
  intro len args ha
  have hf : forRangeLen equal bound (.call (.name "range".toList) args) = some x := by
    simp only [List.mem_cons, List.not_mem_nil, or_false] at ha
    rcases ha with rfl | rfl | rfl <;> simp only [forRangeLen, rangeParams, if_true, len, litIs, hl] <;> rfl
  unfold indexLoop
  rw [hf]
  simp only
  rw [if_pos (by cases x <;> simp [stripToName, isStructure] at hx ⊢)]
  simp only [hx, hy, hi, Bool.and_self, if_true]

/-- **C165**, the variable: it is the one that the structure begins with. -/
theorem C165_variable {target iter x : Expr} {y i : Str} (h : indexLoop equal bound target iter = some (x, y, i)) :
    (x = .name y ∨ (∃ a m, x = .attr a m ∧ stripToName a = some y) ∨ ∃ a k, x = .subscript a k ∧ stripToName a = some y) ∧
      target = .name i := by
  obtain ⟨-, hs, ht, -, -⟩ := indexLoop_some h
  refine ⟨?_, ht⟩
  cases x <;> simp [stripToName] at hs
  · exact .inl (by rw [hs])
  · exact .inr (.inl ⟨_, _, rfl, hs⟩)
  · exact .inr (.inr ⟨_, _, rfl, hs⟩)

end

/-! ### Examples -/

/-- Lists are objects, of which `1` has two elements; there are no floats. -/
def twoRest : FoldSem Val where
  lit _ := .none
  ofBool := .bool
  truth _ := .error .typeError
  unary _ _ := .error .typeError
  binary _ _ _ := .error .typeError
  cmp _ _ _ := .error .typeError
  call f args := if f = .builtin "len".toList ∧ args = [.obj 1] then .ok (.int 2) else if f = .obj 2 then .ok (.obj 1) else .error .typeError
  attr _ _ := .error .attributeError
  item _ _ := .error .typeError
  other _ _ := .error .typeError
  isNumber _ := false
  isZero _ := .error .typeError

/-- `xs` is a list of two elements. -/
def twoEnv : Env Val := fun x => if x = "xs".toList then .ok (.obj 1) else .ok (.builtin x)

/-- `range(0, len(xs))` -/
def exIndices : Expr := .call (.name "range".toList) [.const (.int 0), .call (.name "len".toList) [.name "xs".toList]]

example : ∃ w, ∃ n : Nat, eval (intSem twoRest).toSem twoEnv (.name "xs".toList) = .ok w ∧
    (intSem twoRest).call (.builtin "len".toList) [w] = .ok (.int n) ∧ Val.range 0 2 1 = .range 0 n 1 ∧
    pyRange 0 n 1 = (List.range n).map fun k : Nat => (k : Int) := by
  refine C165_partial (equal := fun _ _ => false) (bound := fun x => decide (x ∈ ["xs".toList, "i".toList])) (target := .name "i".toList)
    (iter := exIndices) (y := "xs".toList) (i := "i".toList) ?_ (fun _ => by decide +kernel) ?_ ?_ (by decide +kernel) (by decide +kernel)
  · intro f hf
    simp only [List.mem_cons, List.not_mem_nil, or_false] at hf
    rcases hf with rfl | rfl | rfl <;> decide +kernel
  · intro w u h
    have hb : builtinCall "len".toList [w] = none := rfl
    simp only [intSem, hb, twoRest] at h
    split at h
    · cases h; exact ⟨2, rfl⟩
    · simp at h
  · intro t vs u hm
    have hm : Val.none ∈ vs := by simpa [twoRest] using hm
    have : builtinCall "range".toList vs = none := by
      unfold builtinCall
      rw [if_neg (by decide), if_pos rfl]
      match vs with
      | [] => rfl
      | [a] => simp at hm; subst hm; rfl
      | [a, b] =>
        simp at hm
        rcases hm with rfl | rfl
        · rfl
        · cases a <;> rfl
      | [a, b, c] =>
        simp at hm
        rcases hm with rfl | rfl | rfl
        · rfl
        · cases a <;> rfl
        · cases a <;> cases b <;> rfl
      | _ :: _ :: _ :: _ :: _ => rfl
    simp only [intSem, this, twoRest]
    rw [if_neg (by simp)]
    simp

/-- `range(1, len(xs))`, `range(0, len(xs), 2)`, `range(len(f(xs)))`, `range(len(xs, ys))` and loops with `len` defined by the program are left alone. -/
example : let b := fun x => decide (x ∈ ["xs".toList, "i".toList])
    let e := fun (_ : Str) (_ : Nat) => false
    let len := fun x => Expr.call (.name "len".toList) x
    let xs := Expr.name "xs".toList
    let range := fun x => Expr.call (.name "range".toList) x
    indexLoop e b (.name "i".toList) (range [.const (.int 1), len [xs]]) = none ∧
    indexLoop e b (.name "i".toList) (range [.const (.int 0), len [xs], .const (.int 2)]) = none ∧
    indexLoop e b (.name "i".toList) (range [len [.call (.name "f".toList) [xs]]]) = none ∧
    indexLoop e b (.name "i".toList) (range [len [xs, xs]]) = none ∧
    indexLoop e b (.attr (.name "i".toList) "a".toList) (range [len [xs]]) = none ∧
    indexLoop e (fun _ => true) (.name "i".toList) (range [len [xs]]) = none ∧
    indexLoop e b (.name "i".toList) (range [len [.name "ys".toList]]) = none ∧
    indexLoop e b (.name "j".toList) (range [len [xs]]) = none ∧
    indexLoop e b (.name "i".toList) (range [len [.subscript (.attr xs "a".toList) (.const (.int 0))]]) =
      some (.subscript (.attr xs "a".toList) (.const (.int 0)), "xs".toList, "i".toList) := by
  decide +kernel

/-- **C165** is false if `range` is a variable, as in `def range(n): return xs`: the loop is taken for one over indices and goes over a list. -/
theorem C165_counterexample (equal : Str → Nat → Bool) :
    let bound := fun x => decide (x ∈ ["xs".toList, "i".toList, "range".toList])
    let env : Env Val := fun x => if x = "range".toList then .ok (.obj 2) else twoEnv x
    indexLoop equal bound (.name "i".toList) exIndices = some (.name "xs".toList, "xs".toList, "i".toList) ∧
      eval (intSem twoRest).toSem env exIndices = .ok (.obj 1) := by
  refine ⟨?_, by decide +kernel⟩
  exact C165_all (.name "xs".toList) "xs".toList "i".toList rfl (by decide +kernel) (by decide +kernel) (by decide +kernel) _ (by simp)

end Verif.Py
