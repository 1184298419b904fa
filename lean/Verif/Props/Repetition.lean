import Verif.Model.Repetition
import Verif.Lemmas.PyInt
import Verif.Props.InRange
import Mathlib.Tactic.ByContra

/-! C38, C39: repeated code. -/

namespace Verif.Py

/-! ### C39 -/

theorem pyRange_one (a b : Nat) (x : Int) : x ∈ pyRange a b 1 ↔ (a : Int) ≤ x ∧ x < b := by
  rw [mem_pyRange (by decide)]
  constructor
  · rintro ⟨i, rfl, h⟩; omega
  · rintro ⟨h1, h2⟩; exact ⟨(x - a).toNat, by omega, by omega⟩

theorem subblocks_eq {σ : Type} (block : List σ) (k len : Nat) (hlen : 0 < len) :
    subblocks block (len * k) len = (List.range k).map fun i => (block.drop (len * i)).take len := by
  unfold subblocks pyRange
  have hr : rangeLen 0 ((len * k : Nat) : Int) len = k := by
    have h : ∀ i : Nat, i < rangeLen 0 ((len * k : Nat) : Int) len ↔ i < k := by
      intro i
      rw [lt_rangeLen (by omega)]
      constructor
      · rintro (⟨_, h⟩ | ⟨h, _⟩)
        · have h' : len * i < len * k := by
            simp only [Int.natCast_mul, Int.zero_add] at h
            exact_mod_cast h
          exact Nat.lt_of_mul_lt_mul_left h'
        · omega
      · intro h
        refine .inl ⟨by omega, ?_⟩
        have h' : len * i < len * k := Nat.mul_lt_mul_of_pos_left h hlen
        have : ((len * i : Nat) : Int) < (len * k : Nat) := by exact_mod_cast h'
        simpa using this
    have h1 := h k
    have h2 := h (rangeLen 0 ((len * k : Nat) : Int) len)
    omega
  rw [hr, List.map_map]
  congr 1
  funext i
  simp only [Function.comp]
  congr 2
  have : (0 : Int) + len * i = ((len * i : Nat) : Int) := by push_cast; omega
  rw [this]
  rfl

/-- Consecutive parts of one length. -/
theorem flatten_parts {σ : Type} (block : List σ) (len : Nat) : ∀ k, 
    ((List.range k).map fun i => (block.drop (len * i)).take len).flatten = block.take (len * k)
  | 0 => by simp
  | k + 1 => by
    rw [List.range_succ, List.map_append, List.flatten_append, flatten_parts block len k]
    simp only [List.map_cons, List.map_nil, List.flatten_cons, List.flatten_nil, List.append_nil]
    rw [Nat.mul_succ, List.take_add]

theorem parts_unique {σ : Type} (len : Nat) : ∀ (parts : List (List σ)) (block : List σ), 
    (∀ p ∈ parts, p.length = len) → parts.flatten = block.take (len * parts.length) →
    parts = (List.range parts.length).map fun i => (block.drop (len * i)).take len
  | [], _, _, _ => rfl
  | p :: parts, block, hl, h => by
    have hp : p.length = len := hl p (by simp)
    simp only [List.flatten_cons, List.length_cons] at h
    have hle : len ≤ len * (parts.length + 1) := Nat.le_mul_of_pos_right _ (by omega)
    have h1 : p = block.take len := by
      have := congrArg (List.take len) h
      rw [List.take_take, Nat.min_eq_left hle] at this
      rw [← this, ← hp, List.take_left']
      rfl
    have h2 : parts.flatten = (block.drop len).take (len * parts.length) := by
      have := congrArg (List.drop len) h
      rw [List.drop_take, Nat.mul_succ, Nat.add_sub_cancel] at this
      rw [← this, ← hp, List.drop_left']
      rfl
    have ih := parts_unique len parts (block.drop len) (fun q hq => hl q (by simp [hq])) h2
    rw [List.length_cons, List.range_succ_eq_map, List.map_cons, List.map_map]
    have hhead : p = (block.drop (len * 0)).take len := by simpa using h1
    rw [← hhead]
    refine congrArg (p :: ·) ?_
    refine ih.trans ?_
    congr 1
    funext i
    simp only [Function.comp, List.drop_drop, Nat.mul_succ, Nat.add_comm]

/-- C39. What `get_loop_repetitions` yields for a block are exactly the splits of a prefix of the block into
two or more parts of the same, positive, length, each with the length of the prefix. -/
theorem C39_splits {σ : Type} (block : List σ) (n : Nat) (parts : List (List σ)) :
    (n, parts) ∈ loopRepetitions block ↔
      2 ≤ parts.length ∧ n ≤ block.length ∧ parts.flatten = block.take n ∧
        ∃ len, 0 < len ∧ n = len * parts.length ∧ ∀ p ∈ parts, p.length = len := by
  unfold loopRepetitions
  rw [List.mem_flatMap]
  constructor
  · rintro ⟨stop, hs, h⟩
    rw [List.mem_flatMap] at h
    obtain ⟨len, hl, h⟩ := h
    rw [mem_pyRange (by decide)] at hs hl
    obtain ⟨i, rfl, hi⟩ := hs
    obtain ⟨j, rfl, hj⟩ := hl
    split at h
    · cases h
    · rename_i hmod
      simp only [List.mem_cons, List.not_mem_nil, or_false, Prod.mk.injEq] at h
      obtain ⟨rfl, rfl⟩ := h
      generalize hstop : (block.length : Int) + -1 * (i : Int) = stop at *
      have hstop' : ∃ s : Nat, stop = s := ⟨stop.toNat, by omega⟩
      obtain ⟨s, rfl⟩ := hstop'
      have hlen : (1 : Int) + 1 * (j : Int) = ((j + 1 : Nat) : Int) := by push_cast; omega
      rw [hlen] at hmod hj ⊢
      have hs2 : 2 * (j + 1) ≤ s := by omega
      have hsl : s ≤ block.length := by omega
      simp only [ne_eq, Decidable.not_not] at hmod
      have hdvd : (j + 1) ∣ s := by
        apply Nat.dvd_of_mod_eq_zero
        have : (((s % (j + 1) : Nat)) : Int) = 0 := by rw [← hmod]; push_cast; rfl
        exact_mod_cast this
      obtain ⟨k, rfl⟩ := hdvd
      have hk : 2 ≤ k := by
        rcases Nat.lt_or_ge k 2 with h | h
        · have : k = 0 ∨ k = 1 := by omega
          rcases this with rfl | rfl <;> omega
        · exact h
      have hn : ((((j + 1) * k : Nat) : Int) / ((j + 1 : Nat) : Int) * ((j + 1 : Nat) : Int)).toNat = (j + 1) * k := by
        rw [Int.natCast_mul, Int.mul_ediv_cancel_left _ (by omega), Int.mul_comm, ← Int.natCast_mul]
        rfl
      rw [hn]
      simp only [Int.toNat_natCast]
      rw [subblocks_eq _ _ _ (by omega)]
      refine ⟨by simpa using hk, hsl, by rw [flatten_parts], j + 1, by omega, by simp, ?_⟩
      intro p hp
      simp only [List.mem_map, List.mem_range] at hp
      obtain ⟨m, hm, rfl⟩ := hp
      rw [List.length_take, List.length_drop]
      have : (j + 1) * (m + 1) ≤ (j + 1) * k := Nat.mul_le_mul_left _ hm
      rw [Nat.mul_succ] at this
      omega
  · rintro ⟨h2, hn, hflat, len, hpos, rfl, hl⟩
    have hle : 2 * len ≤ len * parts.length := by rw [Nat.mul_comm]; exact Nat.mul_le_mul_left _ h2
    refine ⟨((len * parts.length : Nat) : Int), ?_, ?_⟩
    · rw [mem_pyRange (by decide)]
      exact ⟨block.length - len * parts.length, by omega, by omega⟩
    · rw [List.mem_flatMap]
      refine ⟨(len : Int), ?_, ?_⟩
      · rw [mem_pyRange (by decide)]
        exact ⟨len - 1, by omega, by omega⟩
      · have hmod : ((len * parts.length : Nat) : Int) % (len : Int) = 0 := by
          rw [Int.natCast_mul]; exact Int.mul_emod_right _ _
        rw [if_neg (not_not_intro hmod)]
        simp only [List.mem_cons, List.not_mem_nil, or_false, Prod.mk.injEq, Int.toNat_natCast]
        refine ⟨?_, ?_⟩
        · rw [Int.natCast_mul, Int.mul_ediv_cancel_left _ (by omega), Int.mul_comm, ← Int.natCast_mul]
          rfl
        · rw [subblocks_eq _ _ _ hpos]
          exact parts_unique len parts block hl hflat

/-- Four statements: one split into four parts, one into two, one of the first three, one of the first
two. -/
example : loopRepetitions ['a', 'b', 'c', 'd'] =
    [(4, [['a'], ['b'], ['c'], ['d']]), (4, [['a', 'b'], ['c', 'd']]), (3, [['a'], ['b'], ['c']]),
      (2, [['a'], ['b']])] := by decide

/-! ### C38 -/

theorem rangeLoop_spec (step : Int) : ∀ (l : List (Option Int)) (previous last : Int),
    rangeLoop step previous l = some last →
    l = (List.range l.length).map (fun k : Nat => some (previous + step * (k + 1))) ∧
      last = previous + step * l.length
  | [], previous, last, h => by
    simp only [rangeLoop, Option.some.injEq] at h
    simp [h]
  | none :: l, previous, last, h => by simp [rangeLoop] at h
  | some x :: l, previous, last, h => by
    simp only [rangeLoop] at h
    split at h
    · cases h
    · rename_i hx
      simp only [ne_eq, Decidable.not_not] at hx
      have hx' : x = previous + step := by omega
      obtain ⟨h1, h2⟩ := rangeLoop_spec step l x last h
      refine ⟨?_, ?_⟩
      · rw [List.length_cons, List.range_succ_eq_map, List.map_cons, List.map_map]
        congr 1
        · rw [hx']; simp
        · refine h1.trans (List.map_congr_left ?_)
          intro k _
          simp only [Function.comp, hx', Nat.succ_eq_add_one, Int.natCast_add, Int.natCast_one]
          congr 1
          rw [Int.mul_add, Int.mul_add, Int.mul_add]
          omega
      · rw [h2, hx', List.length_cons, Int.natCast_add, Int.mul_add]
        simp only [Int.natCast_one, Int.mul_one]
        omega

/-- The values form an arithmetic sequence with the given start and step, and the stop is one past the
last of them. -/
theorem toRangeArgs_spec {l : List (Option Int)} {a b s : Int} (h : toRangeArgs l = .ok (some (a, b, s))) :
    2 ≤ l.length ∧ l = (List.range l.length).map (fun k : Nat => some (a + s * k)) ∧
      b = a + s * (l.length - 1 : Nat) + (if s > 0 then 1 else -1) := by
  match l with
  | [] => simp [toRangeArgs] at h
  | none :: _ => simp [toRangeArgs] at h
  | [some _] => simp [toRangeArgs] at h
  | some _ :: none :: _ => simp [toRangeArgs] at h
  | some x :: some y :: rest =>
    simp only [toRangeArgs] at h
    cases hr : rangeLoop (y - x) y rest with
    | none => simp [hr] at h
    | some last =>
      simp only [hr, Except.ok.injEq, Option.some.injEq, Prod.mk.injEq] at h
      obtain ⟨rfl, rfl, rfl⟩ := h
      obtain ⟨h1, h2⟩ := rangeLoop_spec _ _ _ _ hr
      refine ⟨by simp, ?_, ?_⟩
      · rw [List.length_cons, List.range_succ_eq_map, List.map_cons, List.map_map, List.length_cons,
          List.range_succ_eq_map, List.map_cons, List.map_map]
        refine List.cons_eq_cons.2 ⟨by simp, List.cons_eq_cons.2 ⟨by simp; omega, h1.trans (List.map_congr_left ?_)⟩⟩
        intro k _
        simp only [Function.comp, Nat.succ_eq_add_one, Int.natCast_add, Int.natCast_one]
        congr 1
        rw [Int.mul_add, Int.mul_add, Int.mul_add]
        omega
      · simp only [List.length_cons, Nat.add_sub_cancel, h2]
        rw [Int.natCast_add, Int.mul_add]
        simp only [Int.natCast_one, Int.mul_one]
        omega

theorem rangeLen_args (a s : Int) (n : Nat) (hs : s ≠ 0) (hn : 1 ≤ n) :
    rangeLen a (a + s * (n - 1 : Nat) + (if s > 0 then 1 else -1)) s = n := by
  have h : ∀ i : Nat, i < rangeLen a (a + s * (n - 1 : Nat) + (if s > 0 then 1 else -1)) s ↔ i < n := by
    intro i
    rw [lt_rangeLen hs]
    rcases Int.lt_or_gt_of_ne hs with h | h
    · have hmul : s * ((n - 1 : Nat) : Int) ≤ s * i ↔ (i : Int) ≤ ((n - 1 : Nat) : Int) := by
        rw [Int.mul_comm s, Int.mul_comm s]
        exact Int.mul_le_mul_right_of_neg h
      rw [if_neg (by omega)]
      omega
    · have hmul : s * i ≤ s * ((n - 1 : Nat) : Int) ↔ (i : Int) ≤ ((n - 1 : Nat) : Int) :=
        Int.mul_le_mul_left h
      rw [if_pos h]
      omega
  have h1 := h n
  have h2 := h (rangeLen a (a + s * (n - 1 : Nat) + (if s > 0 then 1 else -1)) s)
  omega

variable (R : FoldSem Val)

theorem evalInt_intNode (env : Env Val) (i : Int) : EvalInt R env (intNode i) i := evalInt_intExpr R env i

/-- The suggested call of `range` evaluates to the range with the given arguments. -/
theorem eval_toRangeNode {env : Env Val} (hb : Builtins env) {a b s : Int} (hs : s ≠ 0) :
    eval (intSem R).toSem env (toRangeNode (a, b, s)) = .ok (.range a b s) := by
  obtain ⟨va, hva, ha⟩ := evalInt_intNode R env a
  obtain ⟨vb, hvb, hb'⟩ := evalInt_intNode R env b
  obtain ⟨vs, hvs, hs'⟩ := evalInt_intNode R env s
  have hr : env "range".toList = .ok (.builtin "range".toList) := hb _ (by simp)
  simp only [toRangeNode, eval, hr]
  by_cases h1 : s = 1
  · subst h1
    by_cases h0 : a = 0
    · subst h0
      simp only [ne_eq, not_true, if_false, evalAll, hvb]
      exact intSem_call R (by simp [builtinCall, hb'])
    · simp only [ne_eq, not_true, if_false, h0, not_false_eq_true, if_true, evalAll, hva, hvb]
      exact intSem_call R (by simp [builtinCall, ha, hb'])
  · simp only [ne_eq, h1, not_false_eq_true, if_true, evalAll, hva, hvb, hvs]
    exact intSem_call R (by simp [builtinCall, ha, hb', hs', hs])

/-- An environment in which the loop variable has a value. -/
def withLoopVar (env : Env Val) (x : Int) : Env Val := fun y => if y = ['i'] then .ok (.int x) else env y

theorem evalInt_loopVar (env : Env Val) (x : Int) : EvalInt R (withLoopVar env x) loopVar x :=
  ⟨.int x, by simp [loopVar, eval, withLoopVar], rfl⟩

theorem evalInt_sharedUse (env : Env Val) (x a b s : Int) :
    EvalInt R (withLoopVar env x) (sharedUse (a, b, s)) (a + s * x) := by
  have h1 : EvalInt R (withLoopVar env x) (if s ≠ 1 then .bin .mul loopVar (intNode s) else loopVar) (x * s) := by
    split
    · exact evalInt_bin R (op := .mul) (evalInt_loopVar R env x) (evalInt_intNode R _ s) rfl
    · rename_i h
      simp only [ne_eq, Decidable.not_not] at h
      subst h
      simpa using evalInt_loopVar R env x
  simp only [sharedUse]
  split
  · have := evalInt_bin R (op := .add) h1 (evalInt_intNode R _ a) rfl
    rwa [Int.add_comm, Int.mul_comm x] at this
  · rename_i h
    simp only [ne_eq, Decidable.not_not] at h
    subst h
    rwa [Int.zero_add, Int.mul_comm]

theorem allRangeArgs_get : ∀ {seqs : List (List Val)} {iters : List (Option (Int × Int × Int))},
    allRangeArgs seqs = .ok iters → iters.length = seqs.length ∧
      ∀ (j : Nat) (seq : List Val), seqs[j]? = some seq → ∃ r, iters[j]? = some r ∧ toRangeArgs (seq.map Val.asInt) = .ok r
  | [], iters, h => by
    simp only [allRangeArgs, Except.ok.injEq] at h
    subst h
    simp
  | s :: seqs, iters, h => by
    simp only [allRangeArgs] at h
    cases hr : toRangeArgs (s.map Val.asInt) with
    | error x => simp [hr] at h
    | ok r =>
      cases hrs : allRangeArgs seqs with
      | error x => simp [hr, hrs] at h
      | ok rs =>
        simp only [hr, hrs, Except.ok.injEq] at h
        subst h
        obtain ⟨h1, h2⟩ := allRangeArgs_get hrs
        refine ⟨by simp [h1], ?_⟩
        intro j seq hj
        cases j with
        | zero => simp only [List.getElem?_cons_zero, Option.some.injEq] at hj; subst hj; exact ⟨r, by simp, hr⟩
        | succ j => simpa using h2 j seq (by simpa using hj)

theorem filterMap_id_all {α : Type} : ∀ {l : List (Option α)}, (l.filterMap id).length = l.length →
    l = (l.filterMap id).map some
  | [], _ => rfl
  | none :: l, h => by
    have := List.length_filterMap_le id l
    simp at h
    omega
  | some x :: l, h => by
    have h' : (l.filterMap id).length = l.length := by
      rw [List.filterMap_cons_some (f := id) (a := some x) (b := x) rfl] at h
      simpa using h
    rw [List.filterMap_cons_some (f := id) (a := some x) (b := x) rfl, List.map_cons, ← filterMap_id_all h']

/-- The first two values differ. -/
def Differ (seq : List Val) : Prop := ∀ v w rest, seq = v :: w :: rest → v.asInt ≠ w.asInt

/-- The second value is greater than the first. -/
def Increase (seq : List Val) : Prop :=
  ∀ v w rest i j, seq = v :: w :: rest → v.asInt = some i → w.asInt = some j → i < j

theorem step_of_args {seq : List Val} {a b s : Int} (h : toRangeArgs (seq.map Val.asInt) = .ok (some (a, b, s))) :
    ∃ v w rest, seq = v :: w :: rest ∧ v.asInt = some a ∧ w.asInt = some (a + s) := by
  obtain ⟨h2, hl, _⟩ := toRangeArgs_spec h
  match seq, h2 with
  | [], h2 => simp at h2
  | [_], h2 => simp at h2
  | v :: w :: rest, _ =>
    refine ⟨v, w, rest, rfl, ?_, ?_⟩
    · have := congrArg (·[0]?) hl
      simpa using this
    · have := congrArg (·[1]?) hl
      simpa using this

/-- C38 (partial). If a loop over a range is suggested instead of `count` repetitions that differ in the
values of integer constants, the range has `count` elements, and what is to be written at each of the
places has, for the `k`-th element, the value of the `k`-th repetition.

Missing: with one place, values of which the first two are equal (as `2` and `1 + 1` are); with several
places, values that decrease at the last of them. See `C38_zero_counterexample` and
`C38_decreasing_counterexample`. Places with one-character strings or with expressions are not
modelled. -/
theorem C38_partial {env : Env Val} (hb : Builtins env) {isCollection : List Val → Bool} {seqs : List (List Val)}
    {count : Nat} {iter : Expr} {uses : List Expr}
    (h : niceIters isCollection seqs count = .ok (.range iter uses))
    (hlen : ∀ seq ∈ seqs, seq.length = count)
    (hone : ∀ seq, seqs = [seq] → Differ seq)
    (hmany : ∀ seq, 2 ≤ seqs.length → seqs.getLast? = some seq → Increase seq) :
    ∃ a b s, eval (intSem R).toSem env iter = .ok (.range a b s) ∧ (pyRange a b s).length = count ∧
      uses.length = seqs.length ∧
      ∀ (j : Nat) (seq : List Val) (use : Expr), seqs[j]? = some seq → uses[j]? = some use →
        ∀ (k : Nat) (x : Int), (pyRange a b s)[k]? = some x →
          ∃ i, EvalInt R (withLoopVar env x) use i ∧ seq[k]?.map Val.asInt = some (some i) := by
  unfold niceIters at h
  match hs : seqs with
  | [] =>
    simp only [Except.ok.injEq, LoopSuggestion.range.injEq] at h
    obtain ⟨rfl, rfl⟩ := h
    refine ⟨0, count, 1, ?_, ?_, rfl, by simp⟩
    · have := eval_toRangeNode R hb (a := 0) (b := count) (s := 1) (by decide)
      simpa [toRangeNode] using this
    · rw [length_pyRange]; simp [rangeLen]
  | seq0 :: more =>
    simp only at h
    cases hi : allRangeArgs (seq0 :: more) with
    | error x => simp [hi] at h
    | ok iters =>
      simp only [hi] at h
      obtain ⟨hil, hget⟩ := allRangeArgs_get hi
      split at h
      · simp at h
      split at h
      · simp at h
      split at h
      · simp at h
      split at h
      · simp at h
      rename_i _ hmix hnone _
      have hall : (iters.filterMap id).length = iters.length := by
        by_contra hne; exact hmix ⟨hnone, hne⟩
      have hiters := filterMap_id_all hall
      generalize iters.filterMap id = ranges at h hall hiters hnone
      subst hiters
      have hrl : ranges.length = (seq0 :: more).length := by simpa using hil
      have hrange : ∀ (j : Nat) (seq : List Val), (seq0 :: more)[j]? = some seq → ∃ r, ranges[j]? = some r ∧
          toRangeArgs (seq.map Val.asInt) = .ok (some r) := by
        intro j seq hj
        obtain ⟨r, hr1, hr2⟩ := hget j seq hj
        rw [List.getElem?_map] at hr1
        cases hrj : ranges[j]? with
        | none => simp [hrj] at hr1
        | some r' =>
          simp only [hrj, Option.map_some, Option.some.injEq] at hr1
          subst hr1
          exact ⟨r', rfl, hr2⟩
      have hval : ∀ (j : Nat) (seq : List Val) (a b s : Int), (seq0 :: more)[j]? = some seq → ranges[j]? = some (a, b, s) →
          seq.map Val.asInt = (List.range count).map (fun k : Nat => some (a + s * k)) ∧ 2 ≤ count ∧
            b = a + s * (count - 1 : Nat) + (if s > 0 then 1 else -1) ∧
            toRangeArgs (seq.map Val.asInt) = .ok (some (a, b, s)) := by
        intro j seq a b s hj hr
        obtain ⟨r, hr1, hr2⟩ := hrange j seq hj
        rw [hr] at hr1
        cases hr1
        obtain ⟨g1, g2, g3⟩ := toRangeArgs_spec hr2
        have hc : seq.length = count := hlen seq (List.mem_of_getElem? hj)
        simp only [List.length_map, hc] at g1 g2 g3
        exact ⟨g2, g1, g3, hr2⟩
      have helem : ∀ (seq : List Val) (a s : Int), seq.map Val.asInt = (List.range count).map (fun k : Nat => some (a + s * k)) →
          ∀ k : Nat, k < count → seq[k]?.map Val.asInt = some (some (a + s * k)) := by
        intro seq a s hseq k hk
        have := congrArg (·[k]?) hseq
        simpa [List.getElem?_range hk] using this
      match hm : more, ranges, hrl with
      | [], [(a, b, s)], _ =>
        simp only [consolidateRanges, Except.ok.injEq, LoopSuggestion.range.injEq] at h
        obtain ⟨rfl, rfl⟩ := h
        obtain ⟨g1, g2, g3, g4⟩ := hval 0 seq0 a b s (by simp) (by simp)
        have hs0 : s ≠ 0 := by
          obtain ⟨v, w, rest, hvw, h1, h2⟩ := step_of_args g4
          intro h0
          refine hone seq0 rfl v w rest hvw ?_
          rw [h1, h2, h0, Int.add_zero]
        have hlen' : rangeLen a b s = count := by rw [g3]; exact rangeLen_args a s count hs0 (by omega)
        refine ⟨a, b, s, eval_toRangeNode R hb hs0, by rw [length_pyRange, hlen'], rfl, ?_⟩
        intro j seq use hj hu k x hx
        match j with
        | 0 =>
          simp only [List.getElem?_cons_zero, Option.some.injEq] at hj hu
          subst hj hu
          simp only [pyRange, hlen', List.getElem?_map] at hx
          have hk : k < count := by
            by_contra hk
            rw [List.getElem?_eq_none (by simpa using hk)] at hx
            simp at hx
          rw [List.getElem?_range hk] at hx
          simp only [Option.map_some, Option.some.injEq] at hx
          subst hx
          exact ⟨_, evalInt_loopVar R env _, helem seq0 a s g1 k hk⟩
        | j + 1 => simp at hj
      | seq1 :: more', r0 :: r1 :: rs, hrl' =>
        simp only [consolidateRanges] at h
        cases hlast : (r0 :: r1 :: rs).getLast? with
        | none => simp at hlast
        | some r =>
          obtain ⟨a, b, s⟩ := r
          simp only [hlast] at h
          by_cases hs0 : s = 0
          · simp [hs0] at h
          · simp only [hs0, if_false, Except.ok.injEq, LoopSuggestion.range.injEq] at h
            obtain ⟨rfl, rfl⟩ := h
            have hl1 : (seq0 :: seq1 :: more')[(r0 :: r1 :: rs).length - 1]? =
                (seq0 :: seq1 :: more').getLast? := by
              rw [List.getLast?_eq_getElem?, hrl']
            obtain ⟨seqL, hseqL⟩ : ∃ q, (seq0 :: seq1 :: more').getLast? = some q := by
              cases hq : (seq0 :: seq1 :: more').getLast? with
              | none => simp at hq
              | some q => exact ⟨q, rfl⟩
            rw [hseqL] at hl1
            rw [List.getLast?_eq_getElem?] at hlast
            obtain ⟨g1, g2, g3, g4⟩ := hval _ seqL a b s hl1 hlast
            have hspos : 0 < s := by
              obtain ⟨v, w, rest, hvw, h1, h2⟩ := step_of_args g4
              have := hmany seqL (by simp) hseqL v w rest a (a + s) hvw h1 h2
              omega
            have hcount : (b - a - 1).fdiv s + 1 = count := by
              rw [g3, if_pos hspos]
              have : a + s * ((count - 1 : Nat) : Int) + 1 - a - 1 = s * ((count - 1 : Nat) : Int) := by omega
              rw [this, Int.mul_comm, Int.mul_fdiv_cancel _ hs0]
              omega
            have hlen' : rangeLen 0 count 1 = count := by simp [rangeLen]
            rw [hcount]
            refine ⟨0, count, 1, eval_toRangeNode R hb (by decide), by rw [length_pyRange, hlen'], ?_, ?_⟩
            · simpa using hrl'
            · intro j seq use hj hu k x hx
              simp only [pyRange, hlen', List.getElem?_map] at hx
              have hk : k < count := by
                by_contra hk
                rw [List.getElem?_eq_none (by simpa using hk)] at hx
                simp at hx
              rw [List.getElem?_range hk] at hx
              simp only [Option.map_some, Option.some.injEq, Int.zero_add, Int.one_mul] at hx
              subst hx
              obtain ⟨⟨a', b', s'⟩, hr, _⟩ := hrange j seq hj
              rw [List.getElem?_map, hr] at hu
              simp only [Option.map_some, Option.some.injEq] at hu
              subst hu
              obtain ⟨g1', _⟩ := hval j seq a' b' s' hj hr
              exact ⟨_, evalInt_sharedUse R env k a' b' s', helem seq a' s' g1' k hk⟩

/-- Statements with `0`, `2`, `4` at one place and `7`, `6`, `5` at another, and with `7`, `6`, `5` alone. -/
example (f : List Val → Bool) :
    niceIters f [[.int 7, .int 6, .int 5], [.int 0, .int 2, .int 4]] 3 =
      .ok (.range (.call (.name "range".toList) [.const (.int 3)])
        [.bin .add (.bin .mul loopVar (.unary .neg (.const (.int 1)))) (.const (.int 7)),
          .bin .mul loopVar (.const (.int 2))]) ∧
    niceIters f [[.int 7, .int 6, .int 5]] 3 = .ok (.range (.call (.name "range".toList)
        [.const (.int 7), .const (.int 4), .unary .neg (.const (.int 1))]) [loopVar]) := by
  refine ⟨?_, ?_⟩ <;>
  · simp [niceIters, allRangeArgs, toRangeArgs, rangeLoop, Val.asInt, consolidateRanges, toRangeNode, sharedUse,
      intNode]
    decide

/-- C38 is false for values that are the same: for three repetitions with `2`, `1 + 1` and `2` the loop
`for i in range(2, 1, 0)` is suggested, which raises. -/
theorem C38_zero_counterexample (f : List Val → Bool) {env : Env Val} (hb : Builtins env) :
    niceIters f [[.int 2, .int 2, .int 2]] 3 = .ok (.range (toRangeNode (2, 1, 0)) [loopVar]) ∧
      eval (intSem R).toSem env (toRangeNode (2, 1, 0)) = .error .valueError := by
  refine ⟨by simp [niceIters, allRangeArgs, toRangeArgs, rangeLoop, Val.asInt, consolidateRanges]; decide, ?_⟩
  have hr : env "range".toList = .ok (.builtin "range".toList) := hb _ (by simp)
  simp only [toRangeNode, eval, hr]
  rfl

/-- C38 is false for several places where the values decrease at the last one: for three repetitions with
`0`, `1`, `2` at one place and `7`, `6`, `5` at another the loop `for i in range(5)` is suggested. -/
theorem C38_decreasing_counterexample (f : List Val → Bool) {env : Env Val} (hb : Builtins env) :
    ∃ iter uses, niceIters f [[.int 0, .int 1, .int 2], [.int 7, .int 6, .int 5]] 3 = .ok (.range iter uses) ∧
      eval (intSem R).toSem env iter = .ok (.range 0 5 1) ∧ pyRange 0 5 1 = [0, 1, 2, 3, 4] := by
  refine ⟨toRangeNode (0, 5, 1), [sharedUse (0, 3, 1), sharedUse (7, 4, -1)], ?_,
    eval_toRangeNode R hb (by decide), by decide⟩
  simp [niceIters, allRangeArgs, toRangeArgs, rangeLoop, Val.asInt, consolidateRanges]
  decide

end Verif.Py
