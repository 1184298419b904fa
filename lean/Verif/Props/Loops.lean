import Verif.Lemmas.Loops

/-!
**C80**: tighter boundaries of ranges. **C81**: `while True` with a condition that leaves it.
-/

namespace Verif.Py.Loops

section
variable {W : Type} {L : Lang W}

/-! ### C80

Full statement: whenever the first (last) iteration of a loop is reported, the loop over the range without its first (last)
value has the same results, apart from the value that the control variable has after it. It is false: see the
counterexamples. The theorems below have additional hypotheses. -/

theorem tighterIn_cases {var start stop step : Expr} {st : Stmt} {w : Which}
    (h : tighterIn L.R var start stop step st = .ok (some w)) :
    ∃ left right s e, st = .if_ (.compare left [(.eq, right)]) (.cons s .nil) e ∧ leaves s = true ∧
      (w = .first → comparesToStart left right var start = true) ∧
      (w = .last → comparesToLast L.R left right var stop step = .ok true) := by
  unfold tighterIn at h
  split at h
  · rename_i left right s e
    by_cases hl : leaves s = true
    · rw [if_pos hl] at h
      by_cases hs : comparesToStart left right var start = true
      · rw [if_pos hs] at h
        simp only [Except.ok.injEq, Option.some.injEq] at h
        subst h
        exact ⟨left, right, s, e, rfl, hl, fun _ => hs, (fun h => nomatch h)⟩
      · rw [if_neg hs] at h
        cases hc : comparesToLast L.R left right var stop step with
        | error x => rw [hc] at h; cases h
        | ok b =>
          rw [hc] at h
          cases b with
          | false => simp at h
          | true =>
            simp only [Except.ok.injEq, Option.some.injEq] at h
            subst h
            exact ⟨left, right, s, e, rfl, hl, (fun h => nomatch h), fun _ => hc⟩
    · rw [if_neg hl] at h
      simp at h
  · simp at h

/-- The loop goes over what its range evaluates to. -/
structure Over (L : Lang W) (f : For) (s : St W) (x : Str) (start stop step : Expr) (a b c : Int) : Prop where
  target : f.target = .name x
  params : rangeParams f.iter = some (start, stop, step)
  builtins : Builtins s.env
  start : L.Int s start a
  stop : L.Int s stop b
  step : L.Int s step c
  nonzero : c ≠ 0

theorem first_guard {f : For} {s : St W} {x : Str} {start stop step : Expr} {a b c : Int}
    (hf : Over L f s x start stop step a b c) (h : tighter L.R f = .ok (some .first))
    (hcont : ∃ t e, f.first = .if_ t (.cons .cont .nil) e) (hstart : x ∉ Blocks.names start) (o : Out) (s' : St W) :
    RunB L f.body (s.set x (.int a)) o s' ↔ o = .cont ∧ s' = s.set x (.int a) := by
  unfold tighter at h
  rw [hf.params] at h
  simp only at h
  obtain ⟨left, right, st, e, h1, h2, h3, _⟩ := tighterIn_cases h
  obtain ⟨t, e', h4⟩ := hcont
  rw [h1] at h4
  cases h4
  have h3 := h3 rfl
  rw [hf.target] at h3
  have hstart' : L.Int (s.set x (.int a)) start a :=
    int_congr (fun y hy => (set_env_other s _ (by rintro rfl; exact hstart hy)).symm) hf.start
  have ht : L.truth (s.set x (.int a)) (.compare left [(.eq, right)]) = .ok true := by
    simp only [comparesToStart, Bool.or_eq_true, Bool.and_eq_true, decide_eq_true_eq] at h3
    rcases h3 with ⟨rfl, rfl⟩ | ⟨rfl, rfl⟩
    · exact truth_eq int_name hstart'
    · exact truth_eq hstart' int_name
  unfold For.body
  rw [h1]
  exact guard_run rfl ht o s'

/-- **C80**, the first iteration. The `if` has `continue` in it, the loop has no `else`, and the first parameter of the
range does not depend on the control variable: the loop from the next value has the same results, apart from the control
variable. -/
theorem C80_first_partial (f : For) (s : St W) (x : Str) (start stop step : Expr) (a b c : Int)
    (hf : Over L f s x start stop step a b c) (h : tighter L.R f = .ok (some .first))
    (hcont : ∃ t e, f.first = .if_ t (.cons .cont .nil) e) (hstart : x ∉ Blocks.names start) (helse : f.orelse = .nil) :
    Same x (f.Run L s) ((f.over (.bin .add start step) stop step).Run L s) := by
  have hv := value_range hf.builtins hf.params hf.start hf.stop hf.step hf.nonzero
  have hv' : L.value s (f.over (.bin .add start step) stop step).iter = .ok (.range (a + c) b c) :=
    value_range hf.builtins rfl (int_add hf.start hf.step) hf.stop hf.step hf.nonzero
  have e1 := run_iff (f := f) hf.target hv
  have e2 := run_iff (f := f.over (.bin .add start step) stop step) hf.target hv'
  have hbody : (f.over (.bin .add start step) stop step).body = f.body := rfl
  have helse' : (f.over (.bin .add start step) stop step).orelse = .nil := helse
  rw [hbody, helse'] at e2
  rw [helse] at e1
  rw [pyRange_tail hf.nonzero] at e2
  have key : Same x (Each L x f.body .nil (pyRange a b c) s) (Each L x f.body .nil (pyRange a b c).tail s) := by
    cases hp : pyRange a b c with
    | nil => exact Same.refl x _
    | cons v vs =>
      have hva := pyRange_head hp
      subst hva
      exact (each_first (first_guard hf h hcont hstart)).1
  refine ⟨fun o s1 hr => ?_, fun o s2 hr => ?_⟩
  · obtain ⟨s2, h1, h2⟩ := key.1 o s1 ((e1 _ _).1 hr)
    exact ⟨s2, (e2 _ _).2 h1, h2⟩
  · obtain ⟨s1, h1, h2⟩ := key.2 o s2 ((e2 _ _).1 hr)
    exact ⟨s1, (e1 _ _).2 h1, h2⟩

/-- **C80**, the first iteration, if there is another one: then the results are the same altogether, also if there is an
`else`. -/
theorem C80_first_exact_partial (f : For) (s : St W) (x : Str) (start stop step : Expr) (a b c : Int)
    (hf : Over L f s x start stop step a b c) (h : tighter L.R f = .ok (some .first))
    (hcont : ∃ t e, f.first = .if_ t (.cons .cont .nil) e) (hstart : x ∉ Blocks.names start)
    (hmore : 2 ≤ (pyRange a b c).length) (o : Out) (s' : St W) :
    f.Run L s o s' ↔ (f.over (.bin .add start step) stop step).Run L s o s' := by
  have hv := value_range hf.builtins hf.params hf.start hf.stop hf.step hf.nonzero
  have hv' : L.value s (f.over (.bin .add start step) stop step).iter = .ok (.range (a + c) b c) :=
    value_range hf.builtins rfl (int_add hf.start hf.step) hf.stop hf.step hf.nonzero
  rw [run_iff (f := f) hf.target hv, run_iff (f := f.over (.bin .add start step) stop step) hf.target hv',
    pyRange_tail hf.nonzero]
  cases hp : pyRange a b c with
  | nil => rw [hp] at hmore; simp at hmore
  | cons v vs =>
    have hva := pyRange_head hp
    subst hva
    refine (each_first (first_guard hf h hcont hstart)).2 f.orelse ?_ o s'
    rintro rfl
    rw [hp] at hmore
    simp at hmore

theorem last_bound {node stop step : Expr} (h : isLastBeforeEnd L.R node stop step = .ok true) {s : St W} {b c : Int}
    (hb : L.Int s stop b) (hc : L.Int s step c) : L.Int s node (b - c) := by
  unfold isLastBeforeEnd at h
  cases h1 : constInt L.R node with
  | error x => rw [h1] at h; cases h
  | ok n =>
    rw [h1] at h
    cases h2 : constInt L.R stop with
    | error x => rw [h2] at h; cases h
    | ok m =>
      rw [h2] at h
      cases h3 : constInt L.R step with
      | error x => rw [h3] at h; cases h
      | ok k =>
        rw [h3] at h
        simp only [Except.ok.injEq, Bool.or_eq_true] at h
        rcases h with h | h
        · unfold isDifference at h
          split at h
          · rename_i l r
            simp only [Bool.and_eq_true, decide_eq_true_eq] at h
            obtain ⟨rfl, rfl⟩ := h
            exact int_sub hb hc
          · cases h
        · cases n with
          | none => simp at h
          | some n =>
            cases m with
            | none => simp at h
            | some m =>
              cases k with
              | none => simp at h
              | some k =>
                simp only [decide_eq_true_eq] at h
                have hm := int_det hb (int_const h2 s)
                have hk := int_det hc (int_const h3 s)
                subst hm; subst hk; subst h
                exact int_const h1 s

/-- **C80**, the last iteration. The step divides the distance between the bounds, the variables in the second and third
parameter of the range do not change in the loop, and the loop has no `else`: the loop that ends a step sooner has the same
results, apart from the control variable. -/
theorem C80_last_partial (f : For) (s : St W) (x : Str) (start stop step : Expr) (a b c : Int)
    (hf : Over L f s x start stop step a b c) (h : tighter L.R f = .ok (some .last)) (hdvd : c ∣ b - a)
    (hkeep : ∀ y ∈ Blocks.names stop ++ Blocks.names step, y ≠ x ∧ ∀ s o s', RunB L f.body s o s' → s'.env y = s.env y)
    (helse : f.orelse = .nil) :
    Same x (f.Run L s) ((f.over start (.bin .sub stop step) step).Run L s) := by
  have hv := value_range hf.builtins hf.params hf.start hf.stop hf.step hf.nonzero
  have hv' : L.value s (f.over start (.bin .sub stop step) step).iter = .ok (.range a (b - c) c) :=
    value_range hf.builtins rfl hf.start (int_sub hf.stop hf.step) hf.step hf.nonzero
  have e1 := run_iff (f := f) hf.target hv
  have e2 := run_iff (f := f.over start (.bin .sub stop step) step) hf.target hv'
  have hbody : (f.over start (.bin .sub stop step) step).body = f.body := rfl
  have helse' : (f.over start (.bin .sub stop step) step).orelse = .nil := helse
  rw [hbody, helse'] at e2
  rw [helse] at e1
  rw [pyRange_init hf.nonzero] at e2
  unfold tighter at h
  rw [hf.params] at h
  simp only at h
  obtain ⟨left, right, st, e, h1, h2, _, h4⟩ := tighterIn_cases h
  have h4 := h4 rfl
  rw [hf.target] at h4
  have hset : ∀ (s : St W) (u : Int), (∀ y ∈ Blocks.names stop ++ Blocks.names step, s.env y = (s.set x (.int u)).env y) :=
    fun s u y hy => (set_env_other s _ (hkeep y hy).1).symm
  have hP : ∀ (s : St W) u o s', (L.Int s stop b ∧ L.Int s step c) → RunB L f.body (s.set x (.int u)) o s' →
      L.Int s' stop b ∧ L.Int s' step c := by
    intro s u o s' hs hr
    have henv : ∀ y ∈ Blocks.names stop ++ Blocks.names step, s.env y = s'.env y := fun y hy => by
      rw [hset s u y hy, (hkeep y hy).2 _ _ _ hr]
    exact ⟨int_congr (fun y hy => henv y (by simp [hy])) hs.1, int_congr (fun y hy => henv y (by simp [hy])) hs.2⟩
  have hguard : ∀ s : St W, (L.Int s stop b ∧ L.Int s step c) → ∀ o s',
      RunB L f.body (s.set x (.int (b - c))) o s' ↔ o = leaveOut st ∧ s' = s.set x (.int (b - c)) := by
    intro s hs o s'
    have hb' : L.Int (s.set x (.int (b - c))) stop b := int_congr (fun y hy => hset s _ y (by simp [hy])) hs.1
    have hc' : L.Int (s.set x (.int (b - c))) step c := int_congr (fun y hy => hset s _ y (by simp [hy])) hs.2
    have ht : L.truth (s.set x (.int (b - c))) (.compare left [(.eq, right)]) = .ok true := by
      unfold comparesToLast at h4
      by_cases hlx : left = .name x
      · rw [if_pos hlx] at h4
        cases hr : isLastBeforeEnd L.R right stop step with
        | error x => rw [hr] at h4; cases h4
        | ok t =>
          rw [hr] at h4
          cases t with
          | true => rw [hlx]; exact truth_eq int_name (last_bound hr hb' hc')
          | false =>
            simp only at h4
            cases hl : isLastBeforeEnd L.R left stop step with
            | error x => rw [hl] at h4; cases h4
            | ok t =>
              rw [hl] at h4
              simp only [Except.ok.injEq, Bool.and_eq_true, decide_eq_true_eq] at h4
              obtain ⟨rfl, rfl⟩ := h4
              exact truth_eq (last_bound hl hb' hc') int_name
      · rw [if_neg hlx] at h4
        simp only at h4
        cases hl : isLastBeforeEnd L.R left stop step with
        | error x => rw [hl] at h4; cases h4
        | ok t =>
          rw [hl] at h4
          simp only [Except.ok.injEq, Bool.and_eq_true, decide_eq_true_eq] at h4
          obtain ⟨rfl, rfl⟩ := h4
          exact truth_eq (last_bound hl hb' hc') int_name
    unfold For.body
    rw [h1]
    exact guard_run h2 ht o s'
  have key : Same x (Each L x f.body .nil (pyRange a b c) s) (Each L x f.body .nil (pyRange a b c).dropLast s) := by
    rcases List.eq_nil_or_concat (pyRange a b c) with hp | ⟨vs, v, hp⟩
    · rw [hp]; exact Same.refl x _
    · rw [List.concat_eq_append] at hp
      have hvb := pyRange_last hf.nonzero hdvd hp
      subst hvb
      rw [hp, List.dropLast_concat]
      exact each_last _ hP hguard vs s ⟨hf.stop, hf.step⟩
  refine ⟨fun o s1 hr => ?_, fun o s2 hr => ?_⟩
  · obtain ⟨s2, h1, h2⟩ := key.1 o s1 ((e1 _ _).1 hr)
    exact ⟨s2, (e2 _ _).2 h1, h2⟩
  · obtain ⟨s1, h1, h2⟩ := key.2 o s2 ((e2 _ _).1 hr)
    exact ⟨s1, (e1 _ _).2 h1, h2⟩

end

/-! ### Examples of C80 -/

section
variable (R : FoldSem Val)

/-- The other statement counts how often it is executed. -/
def counting : Lang Nat where
  R := R
  other _ s o s' := o = .normal ∧ s' = { s with world := s.world + 1 }

/-- There are only builtin functions, and nothing was executed yet. -/
def begin : St Nat := ⟨fun f => .ok (.builtin f), 0⟩

def i_ : Expr := .name "i".toList

def lit (n : Nat) : Expr := .const (.int n)

def range_ (args : List Expr) : Expr := .call (.name "range".toList) args

/-- `if i == n:` with one statement -/
def ifEq (n : Nat) (s : Stmt) : Stmt := .if_ (.compare i_ [(.eq, lit n)]) (.cons s .nil) .nil

/-- `for i in iter:` with the `if` first and a statement that is counted -/
def counted (iter : Expr) (s : Stmt) : For := ⟨i_, iter, s, .cons (.other 0) .nil, .nil⟩

theorem begin_builtins : Builtins begin.env := fun _ _ => rfl

theorem int_lit (s : St Nat) (n : Nat) : (counting R).Int s (lit n) n := ⟨.int n, rfl, rfl⟩

-- `for i in range(0, 5)`, `if i == 0: continue`
example : Same "i".toList ((counted (range_ [lit 0, lit 5]) (ifEq 0 .cont)).Run (counting R) begin)
    (((counted (range_ [lit 0, lit 5]) (ifEq 0 .cont)).over (.bin .add (lit 0) (lit 1)) (lit 5) (lit 1)).Run
      (counting R) begin) :=
  C80_first_partial _ _ _ _ _ _ 0 5 1
    ⟨rfl, rfl, begin_builtins, int_lit R _ 0, int_lit R _ 5, int_lit R _ 1, by decide⟩ rfl ⟨_, _, rfl⟩
    (by simp [lit, Blocks.names]) rfl

example (o : Out) (s' : St Nat) : (counted (range_ [lit 0, lit 5]) (ifEq 0 .cont)).Run (counting R) begin o s' ↔
    ((counted (range_ [lit 0, lit 5]) (ifEq 0 .cont)).over (.bin .add (lit 0) (lit 1)) (lit 5) (lit 1)).Run
      (counting R) begin o s' :=
  C80_first_exact_partial _ _ _ _ _ _ 0 5 1
    ⟨rfl, rfl, begin_builtins, int_lit R _ 0, int_lit R _ 5, int_lit R _ 1, by decide⟩ rfl ⟨_, _, rfl⟩
    (by simp [lit, Blocks.names]) (by decide) o s'

-- `for i in range(1, 7, 2)`, `if i == 5: break`
example : Same "i".toList ((counted (range_ [lit 1, lit 7, lit 2]) (ifEq 5 .brk)).Run (counting R) begin)
    (((counted (range_ [lit 1, lit 7, lit 2]) (ifEq 5 .brk)).over (lit 1) (.bin .sub (lit 7) (lit 2)) (lit 2)).Run
      (counting R) begin) :=
  C80_last_partial _ _ _ _ _ _ 1 7 2
    ⟨rfl, rfl, begin_builtins, int_lit R _ 1, int_lit R _ 7, int_lit R _ 2, by decide⟩ rfl (by decide)
    (by simp [lit, Blocks.names]) rfl

/-- What happens if the condition of the `if` is false. -/
theorem counted_false {n : Nat} {st : Stmt} {s : St Nat}
    (h : (counting R).truth s (.compare i_ [(.eq, lit n)]) = .ok false) (o : Out) (s' : St Nat) :
    RunB (counting R) (.cons (ifEq n st) (.cons (.other 0) .nil)) s o s' ↔
      o = .normal ∧ s' = { s with world := s.world + 1 } := by
  constructor
  · intro hr
    have hif : ∀ o s1, Run (counting R) (ifEq n st) s o s1 → o = .normal ∧ s1 = s := by
      intro o s1 hi
      cases hi with
      | then_ h1 _ => rw [h] at h1; cases h1
      | else_ _ h2 => cases h2; exact ⟨rfl, rfl⟩
      | raise h1 => rw [h] at h1; cases h1
    cases hr with
    | next h1 h2 =>
      obtain ⟨_, rfl⟩ := hif _ _ h1
      cases h2 with
      | next h3 h4 =>
        cases h3 with
        | other h5 => cases h4; exact h5
      | leave h3 h4 =>
        cases h3 with
        | other h5 => exact absurd h5.1 h4
    | leave h1 h2 => exact absurd (hif _ _ h1).1 h2
  · rintro ⟨rfl, rfl⟩
    exact .next (.else_ h .nil) (.next (.other ⟨rfl, rfl⟩) .nil)

/-- **C80** is false if the `if` has `break`: `for i in range(2)`, `if i == 0: break` is reported for its first iteration, but
without it there is an iteration. -/
theorem C80_counterexample :
    tighter R (counted (range_ [lit 2]) (ifEq 0 .brk)) = .ok (some .first) ∧
    Over (counting R) (counted (range_ [lit 2]) (ifEq 0 .brk)) begin "i".toList (lit 0) (lit 2) (lit 1) 0 2 1 ∧
    ¬ Same "i".toList ((counted (range_ [lit 2]) (ifEq 0 .brk)).Run (counting R) begin)
      (((counted (range_ [lit 2]) (ifEq 0 .brk)).over (.bin .add (lit 0) (lit 1)) (lit 2) (lit 1)).Run
        (counting R) begin) := by
  have hov : Over (counting R) (counted (range_ [lit 2]) (ifEq 0 .brk)) begin "i".toList (lit 0) (lit 2) (lit 1) 0 2 1 :=
    ⟨rfl, rfl, begin_builtins, int_lit R _ 0, int_lit R _ 2, int_lit R _ 1, by decide⟩
  refine ⟨rfl, hov, fun h => ?_⟩
  have hrun : (counted (range_ [lit 2]) (ifEq 0 .brk)).Run (counting R) begin .normal (begin.set "i".toList (.int 0)) :=
    .run (a := 0) (b := 2) (c := 1) rfl rfl (.brk (.leave (.then_ rfl (.leave .brk (by simp))) (by simp)))
  obtain ⟨s2, h1, h2⟩ := h.1 _ _ hrun
  rw [run_iff (x := "i".toList) (a := 1) (b := 2) (c := 1) rfl rfl] at h1
  have hw : s2.world = 1 := by
    rw [show pyRange 1 2 1 = [1] from by decide] at h1
    have hb := counted_false R (n := 0) (st := .brk) (s := begin.set "i".toList (.int 1)) rfl
    cases h1 with
    | next h3 _ h4 =>
      obtain ⟨_, rfl⟩ := (hb _ _).1 h3
      cases h4 with
      | done h5 => cases h5; rfl
    | brk h3 => cases ((hb _ _).1 h3).1
    | leave h3 h4 _ _ => exact absurd ((hb _ _).1 h3).1 h4
  have := h2.1
  rw [hw] at this
  cases this

/-- **C80** is false if the step does not divide the distance between the bounds: `for i in range(0, 3, 2)`,
`if i == 1: continue` is reported for its last iteration, but both iterations happen. -/
theorem C80_counterexample_step :
    tighter R (counted (range_ [lit 0, lit 3, lit 2]) (ifEq 1 .cont)) = .ok (some .last) ∧
    Over (counting R) (counted (range_ [lit 0, lit 3, lit 2]) (ifEq 1 .cont)) begin "i".toList (lit 0) (lit 3) (lit 2) 0 3 2 ∧
    ¬ Same "i".toList ((counted (range_ [lit 0, lit 3, lit 2]) (ifEq 1 .cont)).Run (counting R) begin)
      (((counted (range_ [lit 0, lit 3, lit 2]) (ifEq 1 .cont)).over (lit 0) (.bin .sub (lit 3) (lit 2)) (lit 2)).Run
        (counting R) begin) := by
  have hov : Over (counting R) (counted (range_ [lit 0, lit 3, lit 2]) (ifEq 1 .cont)) begin "i".toList (lit 0) (lit 3)
      (lit 2) 0 3 2 := ⟨rfl, rfl, begin_builtins, int_lit R _ 0, int_lit R _ 3, int_lit R _ 2, by decide⟩
  refine ⟨rfl, hov, fun h => ?_⟩
  have hrun : ∃ s', s'.world = 2 ∧ (counted (range_ [lit 0, lit 3, lit 2]) (ifEq 1 .cont)).Run (counting R) begin .normal s' := by
    refine ⟨_, ?_, .run (a := 0) (b := 3) (c := 2) rfl rfl (.next ((counted_false R rfl _ _).2 ⟨rfl, rfl⟩) (.inl rfl)
      (.next ((counted_false R rfl _ _).2 ⟨rfl, rfl⟩) (.inl rfl) (.done .nil)))⟩
    rfl
  obtain ⟨s', hw', hrun⟩ := hrun
  obtain ⟨s2, h1, h2⟩ := h.1 _ _ hrun
  rw [run_iff (x := "i".toList) (a := 0) (b := 1) (c := 2) rfl rfl] at h1
  have hw : s2.world = 1 := by
    rw [show pyRange 0 1 2 = [0] from by decide] at h1
    have hb := counted_false R (n := 1) (st := .cont) (s := begin.set "i".toList (.int 0)) rfl
    cases h1 with
    | next h3 _ h4 =>
      obtain ⟨_, rfl⟩ := (hb _ _).1 h3
      cases h4 with
      | done h5 => cases h5; rfl
    | brk h3 => cases ((hb _ _).1 h3).1
    | leave h3 h4 _ _ => exact absurd ((hb _ _).1 h3).1 h4
  have := h2.1
  rw [hw, hw'] at this
  cases this

end

/-! ### C81

Full statement: if a condition is suggested for a `while True`, then the loop with its negation as the condition has the same
results. The statements before the `break` then are executed when the condition is false, so they are in `else`. It is false
if there is a `continue` among them. -/

section
variable {W : Type} {L : Lang W}

/-- The loop with the negated condition; `pre` are the statements before `break`, `e` is in the `else` of the `if`, `rest`
follows the `if`. -/
def negated (c : Expr) (pre e rest : Block) : While := ⟨.unary .not c, e.append rest, pre⟩

theorem endsInBreak_split : ∀ b : Block, endsInBreak b = true → ∃ pre : Block, b = pre.append (.cons .brk .nil)
  | .nil, h => by simp [endsInBreak] at h
  | .cons s b, h => by
    by_cases hb : b = .nil
    · subst hb
      cases s with
      | brk => exact ⟨.nil, rfl⟩
      | _ => simp [endsInBreak] at h
    · have hb' : endsInBreak b = true := by
        cases b with
        | nil => exact absurd rfl hb
        | cons t b => cases s <;> simpa [endsInBreak] using h
      obtain ⟨pre, rfl⟩ := endsInBreak_split b hb'
      exact ⟨.cons s pre, rfl⟩

/-- What is known if a condition is suggested. -/
theorem noWhileTrue_cases {w : While} {c : Expr} (h : noWhileTrue L.R w = .ok (some c)) :
    (∀ s : St W, L.truth s w.test = .ok true) ∧
      ∃ pre e rest : Block, w.body = .cons (.if_ c (pre.append (.cons .brk .nil)) e) rest := by
  unfold noWhileTrue at h
  split at h
  · rename_i v hv
    cases ht : (intSem L.R).truth ((intSem L.R).lit v) with
    | error x => rw [ht] at h; cases h
    | ok t =>
      rw [ht] at h
      cases t with
      | false => simp at h
      | true =>
        simp only at h
        split at h
        · cases h
        · rename_i test body e rest hb
          by_cases hbr : endsInBreak body = true
          · rw [if_pos hbr] at h
            simp only [Except.ok.injEq, Option.some.injEq] at h
            subst h
            obtain ⟨pre, rfl⟩ := endsInBreak_split body hbr
            refine ⟨fun s => ?_, pre, e, rest, hb⟩
            rw [hv]
            simpa [Lang.truth, truthOf, eval] using ht
          · rw [if_neg hbr] at h
            simp at h
        · simp at h
  · simp at h

theorem runB_append {b : Block} : ∀ {a : Block} {s : St W} {o : Out} {s' : St W},
    RunB L (a.append b) s o s' ↔ (∃ s1, RunB L a s .normal s1 ∧ RunB L b s1 o s') ∨ (RunB L a s o s' ∧ o ≠ .normal)
  | .nil, s, o, s' => by
    constructor
    · intro h; exact .inl ⟨s, .nil, h⟩
    · rintro (⟨s1, h1, h2⟩ | ⟨h1, h2⟩)
      · cases h1; exact h2
      · cases h1; exact absurd rfl h2
  | .cons t a, s, o, s' => by
    constructor
    · intro h
      cases h with
      | next h1 h2 =>
        rcases runB_append.1 h2 with ⟨s1, h3, h4⟩ | ⟨h3, h4⟩
        · exact .inl ⟨s1, .next h1 h3, h4⟩
        · exact .inr ⟨.next h1 h3, h4⟩
      | leave h1 h2 => exact .inr ⟨.leave h1 h2, h2⟩
    · rintro (⟨s1, h1, h2⟩ | ⟨h1, h2⟩)
      · cases h1 with
        | next h3 h4 => exact .next h3 (runB_append.2 (.inl ⟨s1, h4, h2⟩))
        | leave h3 h4 => exact absurd rfl h4
      · cases h1 with
        | next h3 h4 => exact .next h3 (runB_append.2 (.inr ⟨h4, h2⟩))
        | leave h3 h4 => exact .leave h3 h4

theorem run_brk {s : St W} {o : Out} {s' : St W} : RunB L (.cons .brk .nil) s o s' ↔ o = .brk ∧ s' = s := by
  constructor
  · intro h
    cases h with
    | next h1 _ => cases h1
    | leave h1 _ => cases h1; exact ⟨rfl, rfl⟩
  · rintro ⟨rfl, rfl⟩; exact .leave .brk (by simp)

/-- The body of the loop while the condition is false. -/
theorem body_false {c : Expr} {b e rest : Block} {s : St W} (h : L.truth s c = .ok false) {o : Out} {s' : St W} :
    RunB L (.cons (.if_ c b e) rest) s o s' ↔ RunB L (e.append rest) s o s' := by
  rw [runB_append]
  constructor
  · intro hr
    cases hr with
    | next h1 h2 =>
      cases h1 with
      | then_ h3 _ => rw [h] at h3; cases h3
      | else_ _ h4 => exact .inl ⟨_, h4, h2⟩
    | leave h1 h2 =>
      cases h1 with
      | then_ h3 _ => rw [h] at h3; cases h3
      | else_ _ h4 => exact .inr ⟨h4, h2⟩
      | raise h3 => rw [h] at h3; cases h3
  · rintro (⟨s1, h1, h2⟩ | ⟨h1, h2⟩)
    · exact .next (.else_ h h1) h2
    · exact .leave (.else_ h h1) h2

/-- The body of the loop when the condition is true. -/
theorem body_true {c : Expr} {pre e rest : Block} {s : St W} (h : L.truth s c = .ok true) {o : Out} {s' : St W} :
    RunB L (.cons (.if_ c (pre.append (.cons .brk .nil)) e) rest) s o s' ↔
      (RunB L pre s .normal s' ∧ o = .brk) ∨ (RunB L pre s o s' ∧ o ≠ .normal) := by
  have hb : ∀ o s', RunB L (pre.append (.cons .brk .nil)) s o s' ↔
      (RunB L pre s .normal s' ∧ o = .brk) ∨ (RunB L pre s o s' ∧ o ≠ .normal) := by
    intro o s'
    rw [runB_append]
    constructor
    · rintro (⟨s1, h1, h2⟩ | h1)
      · obtain ⟨rfl, rfl⟩ := run_brk.1 h2
        exact .inl ⟨h1, rfl⟩
      · exact .inr h1
    · rintro (⟨h1, rfl⟩ | h1)
      · exact .inl ⟨s', h1, run_brk.2 ⟨rfl, rfl⟩⟩
      · exact .inr h1
  rw [← hb]
  constructor
  · intro hr
    cases hr with
    | next h1 _ =>
      cases h1 with
      | then_ _ h4 =>
        rcases (hb _ _).1 h4 with ⟨_, h5⟩ | ⟨_, h5⟩
        · cases h5
        · exact absurd rfl h5
      | else_ h3 _ => rw [h] at h3; cases h3
    | leave h1 h2 =>
      cases h1 with
      | then_ _ h4 => exact h4
      | else_ h3 _ => rw [h] at h3; cases h3
      | raise h3 => rw [h] at h3; cases h3
  · intro hr
    refine .leave (.then_ h hr) ?_
    rcases (hb _ _).1 hr with ⟨_, rfl⟩ | ⟨_, h5⟩
    · simp
    · exact h5

theorem truth_not {s : St W} {c : Expr} :
    L.truth s (.unary .not c) = match L.truth s c with | .error x => .error x | .ok b => .ok (!b) := by
  unfold Lang.truth truthOf
  simp only [eval, if_true]
  cases h : eval (intSem L.R).toSem s.env c with
  | error x => rfl
  | ok v =>
    simp only
    cases h2 : (intSem L.R).toSem.truth v with
    | error x => rfl
    | ok b => rfl

/-- **C81**: the loop with the negated condition has the same results, if the statements before `break` do not go on with the
loop or leave it by themselves. -/
theorem C81_partial (w : While) (c : Expr) (h : noWhileTrue L.R w = .ok (some c)) :
    ∃ pre e rest : Block, w.body = .cons (.if_ c (pre.append (.cons .brk .nil)) e) rest ∧
      ((∀ s o s', RunB L pre s o s' → o ≠ .brk ∧ o ≠ .cont) →
        ∀ s o s', w.Run L s o s' ↔ (negated c pre e rest).Run L s o s') := by
  obtain ⟨htest, pre, e, rest, hbody⟩ := noWhileTrue_cases h
  refine ⟨pre, e, rest, hbody, fun hpre s o s' => ⟨fun hr => ?_, fun hr => ?_⟩⟩
  · induction hr with
    | done h1 _ => rw [htest] at h1; cases h1
    | raise h1 => rw [htest] at h1; cases h1
    | @next s _ _ _ _ _ h2 h3 _ ih =>
      rw [hbody] at h2
      cases hc : L.truth s c with
      | error x =>
        cases h2 with
        | next h4 _ =>
          cases h4 with
          | then_ h5 _ => rw [hc] at h5; cases h5
          | else_ h5 _ => rw [hc] at h5; cases h5
        | leave h4 h6 =>
          cases h4 with
          | then_ h5 _ => rw [hc] at h5; cases h5
          | else_ h5 _ => rw [hc] at h5; cases h5
          | raise h5 => rcases h3 with h3 | h3 <;> cases h3
      | ok b =>
        cases b with
        | true =>
          exfalso
          rcases (body_true hc).1 h2 with ⟨_, rfl⟩ | ⟨h4, h5⟩
          · rcases h3 with h3 | h3 <;> cases h3
          · rcases h3 with h3 | h3
            · exact h5 h3
            · exact (hpre _ _ _ h4).2 h3
        | false =>
          refine .next ?_ ((body_false hc).1 h2) h3 ih
          show L.truth _ (.unary .not c) = _
          rw [truth_not, hc]; rfl
    | @brk s _ _ h2 =>
      rw [hbody] at h2
      cases hc : L.truth s c with
      | error x =>
        cases h2 with
        | next h4 _ =>
          cases h4 with
          | then_ h5 _ => rw [hc] at h5; cases h5
          | else_ h5 _ => rw [hc] at h5; cases h5
        | leave h4 h6 =>
          cases h4 with
          | then_ h5 _ => rw [hc] at h5; cases h5
          | else_ h5 _ => rw [hc] at h5; cases h5
      | ok b =>
        cases b with
        | true =>
          rcases (body_true hc).1 h2 with ⟨h4, _⟩ | ⟨h4, h5⟩
          · refine .done ?_ h4
            show L.truth _ (.unary .not c) = _
            rw [truth_not, hc]; rfl
          · exact absurd rfl (hpre _ _ _ h4).1
        | false =>
          refine .brk ?_ ((body_false hc).1 h2)
          show L.truth _ (.unary .not c) = _
          rw [truth_not, hc]; rfl
    | @leave s _ _ _ h2 h3 h3' h3'' =>
      rw [hbody] at h2
      cases hc : L.truth s c with
      | error x =>
        have hn : L.truth s (negated c pre e rest).test = .error x := by
          show L.truth _ (.unary .not c) = _
          rw [truth_not, hc]
        cases h2 with
        | next h4 _ =>
          cases h4 with
          | then_ h5 _ => rw [hc] at h5; cases h5
          | else_ h5 _ => rw [hc] at h5; cases h5
        | leave h4 h6 =>
          cases h4 with
          | then_ h5 _ => rw [hc] at h5; cases h5
          | else_ h5 _ => rw [hc] at h5; cases h5
          | raise h5 =>
            rw [hc] at h5
            cases h5
            exact .raise hn
      | ok b =>
        cases b with
        | true =>
          rcases (body_true hc).1 h2 with ⟨_, h4⟩ | ⟨h4, _⟩
          · exact absurd h4 h3''
          · refine .done ?_ h4
            show L.truth _ (.unary .not c) = _
            rw [truth_not, hc]; rfl
        | false =>
          refine .leave ?_ ((body_false hc).1 h2) h3 h3' h3''
          show L.truth _ (.unary .not c) = _
          rw [truth_not, hc]; rfl
  · have hneg : ∀ {s : St W} {b}, L.truth s (negated c pre e rest).test = .ok b → L.truth s c = .ok (!b) := by
      intro s b hb
      have hb : L.truth s (.unary .not c) = .ok b := hb
      rw [truth_not] at hb
      cases hc : L.truth s c with
      | error x => rw [hc] at hb; cases hb
      | ok b' =>
        rw [hc] at hb
        cases b' <;> cases hb <;> rfl
    induction hr with
    | done h1 h2 =>
      rename_i s o s'
      have hc := hneg h1
      by_cases ho : o = .normal
      · subst ho
        exact .brk (htest s) (by rw [hbody]; exact (body_true hc).2 (.inl ⟨h2, rfl⟩))
      · exact .leave (htest s) (by rw [hbody]; exact (body_true hc).2 (.inr ⟨h2, ho⟩)) ho (hpre _ _ _ h2).2 (hpre _ _ _ h2).1
    | raise h1 =>
      rename_i s x
      have hc : L.truth s c = .error x := by
        have h1 : L.truth s (.unary .not c) = .error x := h1
        rw [truth_not] at h1
        cases hc : L.truth s c with
        | error y => rw [hc] at h1; cases h1; rfl
        | ok b => rw [hc] at h1; cases h1
      exact .leave (htest s) (by rw [hbody]; exact .leave (.raise hc) (by simp)) (by simp) (by simp) (by simp)
    | next h1 h2 h3 _ ih =>
      exact .next (htest _) (by rw [hbody]; exact (body_false (hneg h1)).2 h2) h3 ih
    | brk h1 h2 => exact .brk (htest _) (by rw [hbody]; exact (body_false (hneg h1)).2 h2)
    | leave h1 h2 h3 h4 h5 => exact .leave (htest _) (by rw [hbody]; exact (body_false (hneg h1)).2 h2) h3 h4 h5

/-- **C81**, iterations: the loop with the negated condition starts an iteration exactly when the original loop does and the
condition is false; so one goes on forever if and only if the other does. -/
theorem C81_iterations_partial (w : While) (c : Expr) (h : noWhileTrue L.R w = .ok (some c)) :
    ∃ pre e rest : Block, w.body = .cons (.if_ c (pre.append (.cons .brk .nil)) e) rest ∧
      ((∀ s o s', RunB L pre s o s' → o ≠ .cont) →
        ∀ s n s', (negated c pre e rest).Starts L s n s' ↔ w.Starts L s n s' ∧ L.truth s' c = .ok false) := by
  obtain ⟨htest, pre, e, rest, hbody⟩ := noWhileTrue_cases h
  refine ⟨pre, e, rest, hbody, fun hpre s n s' => ?_⟩
  have hneg : ∀ {s : St W}, L.truth s (negated c pre e rest).test = .ok true ↔ L.truth s c = .ok false := by
    intro s
    show L.truth s (.unary .not c) = .ok true ↔ _
    rw [truth_not]
    cases hc : L.truth s c with
    | error x => simp
    | ok b => cases b <;> simp
  constructor
  · intro hr
    induction hr with
    | first h1 => exact ⟨.first (htest _), hneg.1 h1⟩
    | next h1 h2 h3 h4 ih =>
      exact ⟨.next ih.1 (by rw [hbody]; exact (body_false ih.2).2 h2) h3 (htest _), hneg.1 h4⟩
  · rintro ⟨hr, hc⟩
    induction hr with
    | first h1 => exact .first (hneg.2 hc)
    | next h1 h2 h3 h4 ih =>
      rename_i n s1 o s2
      rw [hbody] at h2
      have hc1 : L.truth s1 c = .ok false := by
        cases hc1 : L.truth s1 c with
        | error x =>
          exfalso
          cases h2 with
          | next h4 _ =>
            cases h4 with
            | then_ h5 _ => rw [hc1] at h5; cases h5
            | else_ h5 _ => rw [hc1] at h5; cases h5
          | leave h4 h6 =>
            cases h4 with
            | then_ h5 _ => rw [hc1] at h5; cases h5
            | else_ h5 _ => rw [hc1] at h5; cases h5
            | raise h5 => rcases h3 with h3 | h3 <;> cases h3
        | ok b =>
          cases b with
          | false => rfl
          | true =>
            exfalso
            rcases (body_true hc1).1 h2 with ⟨_, rfl⟩ | ⟨h5, h6⟩
            · rcases h3 with h3 | h3 <;> cases h3
            · rcases h3 with h3 | h3
              · exact h6 h3
              · exact hpre _ _ _ h5 h3
      exact .next (ih hc1) ((body_false hc1).1 h2) h3 (hneg.2 hc)

/-- `while True:`, `if c: print(); break`, then another statement -/
def untilC : While :=
  ⟨.const (.bool true), .cons (.if_ (.name "c".toList) (.cons (.other 1) (.cons .brk .nil)) .nil) (.cons (.other 0) .nil), .nil⟩

example (R : FoldSem Val) (s : St Nat) (o : Out) (s' : St Nat) : untilC.Run (counting R) s o s' ↔
    (negated (.name "c".toList) (.cons (.other 1) .nil) .nil (.cons (.other 0) .nil)).Run (counting R) s o s' := by
  obtain ⟨pre, e, rest, h1, h2⟩ := C81_partial (L := counting R) untilC (.name "c".toList) rfl
  have h1 : untilC.body = .cons (.if_ (.name "c".toList) (.cons (.other 1) (.cons .brk .nil)) .nil) (.cons (.other 0) .nil) →
      Block.cons (.if_ (.name "c".toList) (.cons (.other 1) (.cons .brk .nil)) .nil) (.cons (.other 0) .nil) =
      .cons (.if_ (.name "c".toList) (pre.append (.cons .brk .nil)) e) rest := fun h => h ▸ h1
  have h1 := h1 rfl
  simp only [Block.cons.injEq, Stmt.if_.injEq, true_and] at h1
  obtain ⟨⟨h3, rfl⟩, rfl⟩ := h1
  have hpre : pre = .cons (.other 1) .nil := by
    cases pre with
    | nil => simp [Block.append] at h3
    | cons t pre =>
      simp only [Block.append, Block.cons.injEq] at h3
      obtain ⟨rfl, h3⟩ := h3
      cases pre with
      | nil => rfl
      | cons u pre =>
        simp only [Block.append, Block.cons.injEq] at h3
        cases pre <;> simp [Block.append] at h3
  subst hpre
  refine h2 (fun s o s' hr => ?_) s o s'
  cases hr with
  | next h4 h5 => cases h5; exact ⟨by simp, by simp⟩
  | leave h4 h5 =>
    cases h4 with
    | other h6 => exact absurd h6.1 h5

/-- **C81** is false if the loop is gone on with before the `break`: `while True: if c: if c: continue; break` does not end
while `c` is true, the loop with the condition `not c` ends. -/
theorem C81_counterexample (R : FoldSem Val) :
    let c := Expr.name "c".toList
    let w : While := ⟨.const (.bool true), .cons (.if_ c (.cons (.if_ c (.cons .cont .nil) .nil) (.cons .brk .nil)) .nil) .nil, .nil⟩
    noWhileTrue R w = .ok (some c) ∧ (∀ o s', ¬ w.Run (counting R) begin o s') ∧
      ∃ o s', (negated c (.cons (.if_ c (.cons .cont .nil) .nil) .nil) .nil .nil).Run (counting R) begin o s' := by
  intro c w
  refine ⟨rfl, ?_, ?_⟩
  · have hbody : ∀ o s', RunB (counting R) w.body begin o s' → o = .cont ∧ s' = begin := by
      intro o s' hr
      have hif : ∀ o s', Run (counting R) (.if_ c (.cons .cont .nil) .nil) begin o s' → o = .cont ∧ s' = begin := by
        intro o s' hi
        cases hi with
        | then_ _ h =>
          cases h with
          | next h1 _ => cases h1
          | leave h1 _ => cases h1; exact ⟨rfl, rfl⟩
        | else_ h _ => cases h
        | raise h => cases h
      have hb : ∀ o s', RunB (counting R) (.cons (.if_ c (.cons .cont .nil) .nil) (.cons .brk .nil)) begin o s' →
          o = .cont ∧ s' = begin := by
        intro o s' hi
        cases hi with
        | next h1 _ => cases (hif _ _ h1).1
        | leave h1 _ => exact hif _ _ h1
      cases hr with
      | next h1 h2 =>
        cases h1 with
        | then_ _ h => cases (hb _ _ h).1
        | else_ h _ => cases h
      | leave h1 h2 =>
        cases h1 with
        | then_ _ h => exact hb _ _ h
        | else_ h _ => cases h
        | raise h => cases h
    have key : ∀ s o s', w.Run (counting R) s o s' → s = begin → False := by
      intro s o s' hr
      induction hr with
      | done h1 _ => intro h; subst h; cases h1
      | raise h1 => intro h; subst h; cases h1
      | next _ h2 _ _ ih => intro h; subst h; exact ih (hbody _ _ h2).2
      | brk _ h2 => intro h; subst h; cases (hbody _ _ h2).1
      | leave _ h2 _ h4 _ => intro h; subst h; exact h4 (hbody _ _ h2).1
    exact fun o s' hr => key _ _ _ hr rfl
  · exact ⟨_, _, .done rfl (.leave (.then_ rfl (.leave .cont (by simp))) (by simp))⟩

end

end Verif.Py.Loops
