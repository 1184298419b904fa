import Verif.Props.SimilarIf

/-!
C122: the branches of an `if` are similar, and conditional expressions are suggested.
C125: the branches differ in `True` and `False`, and it is suggested to use the condition.
-/

namespace Verif.SimilarIf

variable {V W : Type} {I : Interp V W}

/-- There are no calls in it. -/
def Expr.NoCalls : Expr → Prop
  | .const _ => True
  | .bool _ => True
  | .name _ => True
  | .hole _ => True
  | .call _ _ _ => False
  | .op _ a b => a.NoCalls ∧ b.NoCalls
  | .not_ a => a.NoCalls
  | .bool_ _ a b => a.NoCalls ∧ b.NoCalls
  | .tern c a b => c.NoCalls ∧ a.NoCalls ∧ b.NoCalls

/-- The conditions that are evaluated raise no exceptions. -/
def Decides (I : Interp V W) : List Expr → State V W → Prop
  | [], _ => True
  | t :: ts, s => ∃ v, (eval I t s).1 = .ok v ∧ (I.truth v = false → Decides I ts s)

/-- The number of the branch that is executed. -/
def choose (I : Interp V W) : List Expr → State V W → Nat
  | [], _ => 0
  | t :: ts, s => match (eval I t s).1 with | .ok v => if I.truth v then 0 else choose I ts s + 1 | .error _ => 0

theorem eval_pure : ∀ (e : Expr) (s : State V W), e.NoCalls → (eval I e s).2 = s
  | .const _, s, _ => rfl
  | .bool _, s, _ => rfl
  | .name _, s, _ => rfl
  | .hole _, s, _ => rfl
  | .op f a b, s, h => by
    have ha := eval_pure a s h.1
    rw [eval]
    rcases hs : eval I a s with ⟨_ | v, s'⟩ <;> rw [hs] at ha
    · exact ha
    · have hb := eval_pure b s' h.2
      simp only
      rcases hs : eval I b s' with ⟨_ | v, s''⟩ <;> rw [hs] at hb <;> exact hb.trans ha
  | .not_ a, s, h => by
    have ha := eval_pure a s h
    rw [eval]
    rcases hs : eval I a s with ⟨_ | v, s'⟩ <;> rw [hs] at ha <;> exact ha
  | .bool_ c a b, s, h => by
    have ha := eval_pure a s h.1
    rw [eval]
    rcases hs : eval I a s with ⟨_ | v, s'⟩ <;> rw [hs] at ha
    · exact ha
    · simp only
      split
      · exact (eval_pure b s' h.2).trans ha
      · exact ha
  | .tern c a b, s, h => by
    have ha := eval_pure c s h.1
    rw [eval]
    rcases hs : eval I c s with ⟨_ | v, s'⟩ <;> rw [hs] at ha
    · exact ha
    · simp only
      split
      · exact (eval_pure a s' h.2.1).trans ha
      · exact (eval_pure b s' h.2.2).trans ha

/-- It is evaluated to what it was evaluated to, if its variables are the same. -/
theorem eval_agree : ∀ (e : Expr) (s t : State V W), e.NoCalls → Agree e.vars s t → (eval I e t).1 = (eval I e s).1
  | .const _, s, t, _, _ => rfl
  | .bool _, s, t, _, _ => rfl
  | .name x, s, t, _, h => by rw [eval, eval, h x (by simp [Expr.vars])]
  | .hole _, s, t, _, _ => rfl
  | .op f a b, s, t, hn, h => by
    have ha := eval_agree a s t hn.1 fun x hx => h x (by simp [Expr.vars, hx])
    have hb := eval_agree b s t hn.2 fun x hx => h x (by simp [Expr.vars, hx])
    have p1 := eval_pure (I := I) a s hn.1
    have p2 := eval_pure (I := I) a t hn.1
    rw [eval, eval]
    rcases hs : eval I a s with ⟨_ | v, s'⟩ <;> rcases ht : eval I a t with ⟨_ | w, t'⟩ <;> rw [hs] at ha p1 <;> rw [ht] at ha p2 <;> cases ha
    · rfl
    · cases p1
      cases p2
      simp only
      rcases hs : eval I b s' with ⟨_ | v, s''⟩ <;> rcases ht : eval I b t' with ⟨_ | w, t''⟩ <;> rw [hs, ht] at hb <;> cases hb <;> rfl
  | .not_ a, s, t, hn, h => by
    have ha := eval_agree a s t hn fun x hx => h x (by simp [Expr.vars, hx])
    rw [eval, eval]
    rcases hs : eval I a s with ⟨_ | v, s'⟩ <;> rcases ht : eval I a t with ⟨_ | w, t'⟩ <;> rw [hs, ht] at ha <;> cases ha <;> rfl
  | .bool_ c a b, s, t, hn, h => by
    have ha := eval_agree a s t hn.1 fun x hx => h x (by simp [Expr.vars, hx])
    have hb := eval_agree b s t hn.2 fun x hx => h x (by simp [Expr.vars, hx])
    have p1 := eval_pure (I := I) a s hn.1
    have p2 := eval_pure (I := I) a t hn.1
    rw [eval, eval]
    rcases hs : eval I a s with ⟨_ | v, s'⟩ <;> rcases ht : eval I a t with ⟨_ | w, t'⟩ <;> rw [hs] at ha p1 <;> rw [ht] at ha p2 <;> cases ha
    · rfl
    · cases p1
      cases p2
      simp only
      split
      · exact hb
      · rfl
  | .tern c a b, s, t, hn, h => by
    have hc := eval_agree c s t hn.1 fun x hx => h x (by simp [Expr.vars, hx])
    have ha := eval_agree a s t hn.2.1 fun x hx => h x (by simp [Expr.vars, hx])
    have hb := eval_agree b s t hn.2.2 fun x hx => h x (by simp [Expr.vars, hx])
    have p1 := eval_pure (I := I) c s hn.1
    have p2 := eval_pure (I := I) c t hn.1
    rw [eval, eval]
    rcases hs : eval I c s with ⟨_ | v, s'⟩ <;> rcases ht : eval I c t with ⟨_ | w, t'⟩ <;> rw [hs] at hc p1 <;> rw [ht] at hc p2 <;> cases hc
    · rfl
    · cases p1
      cases p2
      simp only
      split
      · exact ha
      · exact hb

theorem next_nil (n : Nat) (r : Res V W) : next r (runB I n []) = r := by
  rcases r with _ | ⟨o, s⟩
  · rfl
  · cases o <;> rfl

theorem runB_single (n : Nat) (t : Stmt) (s : State V W) : runB I n [t] s = run I n t s := by
  rw [runB]
  exact next_nil n _

/-- Of an `if`, one branch is executed. -/
theorem createIfs_run (n : Nat) (s : State V W) : ∀ (tests : List Expr) (bs : List Block), (∀ t ∈ tests, t.NoCalls) → Decides I tests s →
    runB I n (createIfs tests bs) s = runB I n (bs[choose I tests s]?.getD []) s
  | [], bs, _, _ => by rw [createIfs, choose, List.head?_eq_getElem?]
  | [t], bs, hn, hd => by
    obtain ⟨v, hv, -⟩ := hd
    have hp := eval_pure (I := I) t s (hn t (by simp))
    rw [createIfs, runB_single, run, choose, hv]
    rcases he : eval I t s with ⟨_ | w, s'⟩ <;> rw [he] at hv hp <;> cases hv
    cases hp
    simp only [andThen]
    by_cases ht : I.truth v = true
    · rw [if_pos ht, if_pos ht, List.head?_eq_getElem?]
    · rw [if_neg ht, if_neg ht, choose, List.head?_eq_getElem?, List.getElem?_tail]
  | t :: u :: ts, bs, hn, hd => by
    obtain ⟨v, hv, hr⟩ := hd
    have hp := eval_pure (I := I) t s (hn t (by simp))
    rw [createIfs, runB_single, run, choose, hv]
    · rcases he : eval I t s with ⟨_ | w, s'⟩ <;> rw [he] at hv hp <;> cases hv
      cases hp
      simp only [andThen]
      by_cases ht : I.truth v = true
      · rw [if_pos ht, if_pos ht, List.head?_eq_getElem?]
      · rw [if_neg ht, if_neg ht, createIfs_run n s' (u :: ts) bs.tail (fun t h => hn t (List.mem_cons_of_mem _ h)) (hr (by simpa using ht)),
          List.getElem?_tail]
    · simp

theorem choose_le (s : State V W) : ∀ (tests : List Expr), choose I tests s ≤ tests.length
  | [] => Nat.le_refl _
  | t :: ts => by
    rw [choose, List.length_cons]
    have := choose_le s ts
    split
    · split <;> omega
    · omega

/-- What a conditional expression is: what the branch that is executed has. -/
theorem ternary_eval (s₀ s : State V W) : ∀ (tests subs : List Expr) (e : Expr), ternary tests subs = some e → (∀ t ∈ tests, t.NoCalls) → Decides I tests s₀ →
    Agree (tests.flatMap Expr.vars) s₀ s → ∃ a, subs[choose I tests s₀]? = some a ∧ eval I e s = eval I a s
  | [], [e'], e, h, _, _, _ => by
    cases h
    exact ⟨e', rfl, rfl⟩
  | t :: ts, [], e, h, _, _, _ => by cases h
  | [], [], e, h, _, _, _ => by cases h
  | [], _ :: _ :: _, e, h, _, _, _ => by cases h
  | t :: ts, a :: as, e, h, hn, hd, hg => by
    rw [ternary] at h
    obtain ⟨r, hr, rfl⟩ := Option.map_eq_some_iff.mp h
    obtain ⟨v, hv, hd⟩ := hd
    have hp := eval_pure (I := I) t s (hn t (by simp))
    have ha := eval_agree (I := I) t s₀ s (hn t (by simp)) fun x hx => hg x (by simp [hx])
    rw [hv] at ha
    rw [choose, hv, eval]
    rcases he : eval I t s with ⟨_ | w, s'⟩ <;> rw [he] at ha hp <;> cases ha
    cases hp
    simp only
    by_cases ht : I.truth v = true
    · rw [if_pos ht, if_pos ht]
      exact ⟨a, rfl, rfl⟩
    · rw [if_neg ht, if_neg ht]
      exact ternary_eval s₀ s' ts as r hr (fun t h => hn t (List.mem_cons_of_mem _ h)) (hd (by simpa using ht))
        fun x hx => hg x (by simp only [List.flatMap_cons, List.mem_append]; exact Or.inr hx)

theorem ternaries_get (tests : List Expr) : ∀ (avars : List Avar) (es : List Expr), ternaries tests avars = some es → es.length = avars.length ∧
    ∀ (i : Nat) (a : Avar), avars[i]? = some a → ∃ e, es[i]? = some e ∧ ternary tests a.subs = some e
  | [], es, h => by
    cases h
    exact ⟨rfl, fun i a h => by simp at h⟩
  | a :: as, es, h => by
    rw [ternaries] at h
    split at h
    case h_1 e es' he hes =>
      cases h
      have := ternaries_get tests as es' hes
      refine ⟨by simp [this.1], fun i a' hi => ?_⟩
      cases i with
      | zero =>
        cases hi
        exact ⟨e, rfl, he⟩
      | succ i => exact this.2 i a' hi
    case h_2 => cases h

/-- The branch that is executed, of the `if` that there is. -/
theorem original_run (n : Nat) (s : State V W) (tests : List Expr) (avars : List Avar) (core : Block) (hn : ∀ t ∈ tests, t.NoCalls) (hd : Decides I tests s) :
    runB I n (original tests avars core) s = runB I n (fillB (fillOf avars (choose I tests s)) core) s := by
  have hlt : choose I tests s < tests.length + 1 := Nat.lt_succ_of_le (choose_le s tests)
  rw [original, createIfs_run n s tests _ hn hd, variants, List.getElem?_map, List.getElem?_range hlt]
  rfl

/-- Whenever the variables are the same, the same branch is executed. -/
theorem choose_agree : ∀ (tests : List Expr) (s t : State V W), (∀ e ∈ tests, e.NoCalls) → Agree (tests.flatMap Expr.vars) s t →
    choose I tests t = choose I tests s
  | [], s, t, _, _ => rfl
  | e :: es, s, t, hn, hg => by
    rw [choose, choose, eval_agree e s t (hn e (by simp)) fun x hx => hg x (by simp [hx]),
      choose_agree es s t (fun e h => hn e (List.mem_cons_of_mem _ h)) fun x hx => hg x (by simp only [List.flatMap_cons, List.mem_append]; exact Or.inr hx)]

theorem decides_agree : ∀ (tests : List Expr) (s t : State V W), (∀ e ∈ tests, e.NoCalls) → Agree (tests.flatMap Expr.vars) s t → Decides I tests s →
    Decides I tests t
  | [], s, t, _, _, _ => trivial
  | e :: es, s, t, hn, hg, ⟨v, hv, hd⟩ => by
    refine ⟨v, ?_, fun h => decides_agree es s t (fun e h => hn e (List.mem_cons_of_mem _ h))
      (fun x hx => hg x (by simp only [List.flatMap_cons, List.mem_append]; exact Or.inr hx)) (hd h)⟩
    rw [eval_agree e s t (hn e (by simp)) fun x hx => hg x (by simp [hx])]
    exact hv

/-! ### C122 -/

theorem complexFrom_iff : ∀ (l : List Anc) (called : Bool), complexFrom called l = true ↔ .binop ∈ l ∨ (∃ n, 1 < n ∧ .call n ∈ l) ∨
    2 ≤ (if called then 1 else 0) + (l.filter fun a => match a with | .call _ => true | _ => false).length
  | [], called => by cases called <;> simp [complexFrom]
  | .call n :: l, called => by
    rw [complexFrom, Bool.or_eq_true, Bool.or_eq_true, complexFrom_iff l true, decide_eq_true_eq]
    simp only [List.filter_cons, if_true, List.length_cons, List.mem_cons, reduceCtorEq, false_or, Anc.call.injEq]
    cases called
    · simp only [Bool.false_eq_true, false_or, if_false]
      constructor
      · rintro (h | h | ⟨m, hm, h⟩ | h)
        · exact Or.inr (Or.inl ⟨n, h, Or.inl rfl⟩)
        · exact Or.inl h
        · exact Or.inr (Or.inl ⟨m, hm, Or.inr h⟩)
        · exact Or.inr (Or.inr (by omega))
      · rintro (h | ⟨m, hm, rfl | h⟩ | h)
        · exact Or.inr (Or.inl h)
        · exact Or.inl hm
        · exact Or.inr (Or.inr (Or.inl ⟨m, hm, h⟩))
        · exact Or.inr (Or.inr (Or.inr (by omega)))
    · simp only [true_or, if_true, true_iff]
      exact Or.inr (Or.inr (by omega))
  | .binop :: l, called => by simp [complexFrom]
  | .store :: l, called => by
    rw [complexFrom, complexFrom_iff l called]
    simp
  | .other :: l, called => by
    rw [complexFrom, complexFrom_iff l called]
    simp

/-- Something is in an operation, in a call with more arguments, or in two calls. -/
def Involved (a : Avar) : Prop :=
  .binop ∈ a.around ∨ (∃ n, 1 < n ∧ .call n ∈ a.around) ∨ 2 ≤ (a.around.filter fun b => match b with | .call _ => true | _ => false).length

/-- There are at least as many tokens less as is asked for (a fifth, or any), and at most one statement more. -/
def Shorter (fifth : Bool) (tokensBefore stmtsBefore : Nat) (tokensAfter : Int) (stmtsAfter : Nat) : Prop :=
  stmtsAfter ≤ stmtsBefore + 1 ∧ if fifth then (tokensAfter : Int) * 5 < tokensBefore * 4 else tokensAfter < tokensBefore

theorem saves_iff (ratio : Bool) (a b : Nat) (c : Int) (d : Nat) : saves ratio a b c d = true ↔ Shorter ratio a b c d := by
  simp only [saves, Shorter, Bool.and_eq_true, decide_eq_true_eq]
  cases ratio
  · simp
  · simp only [if_true]
    omega

/-- C122: conditional expressions are suggested only where no variable of a condition is changed before they are evaluated, where there is no `and` or `or`
that would be a part of a chain of conditions, where what differs is one thing or constants, and where it is not in something complicated; and if it is shorter.
-/
theorem C122_reported (n : Count) (tests : List Expr) (avars : List Avar) (core : Block) (es : List Expr)
    (h : reportExpr n tests avars core = some es) :
    testsChange tests core = false ∧ (tests.length ≤ 1 ∨ ∀ t ∈ tests, ∀ c a b, t ≠ .bool_ c a b) ∧ (avars.length ≤ 1 ∨ ∀ a ∈ avars, a.const = true) ∧
      (∀ a ∈ avars, ¬Involved a) ∧
      Shorter true (n.tokens (original tests avars core)) (n.stmts (original tests avars core))
        ((n.tokens core : Int) - avars.length + (es.map n.tokensE).sum) (n.stmts core) := by
  rw [reportExpr] at h
  split at h
  · cases h
  rename_i hc
  rw [toExpr] at h
  split at h
  · cases h
  rename_i h1
  split at h
  · cases h
  rename_i h2
  split at h
  · cases h
  rename_i h3
  split at h
  · cases h
  rename_i es' hes
  rw [ifSaves] at h
  split at h
  case isFalse => cases h
  rename_i hs
  cases h
  refine ⟨by simpa using hc, ?_, ?_, ?_, (saves_iff _ _ _ _ _).mp hs⟩
  · simp only [Bool.and_eq_true, decide_eq_true_eq, not_and, List.any_eq_true, not_exists] at h1
    by_cases hl : tests.length ≤ 1
    · exact Or.inl hl
    · refine Or.inr fun t ht c a b e => h1 (by omega) t ht ?_
      rw [e]
      rfl
  · simp only [Bool.and_eq_true, decide_eq_true_eq, not_and, Bool.not_eq_true', Bool.not_eq_false, List.all_eq_true] at h2
    by_cases hl : avars.length ≤ 1
    · exact Or.inl hl
    · exact Or.inr (h2 (by omega))
  · intro a ha hi
    refine h3 ?_
    rw [isComplex, List.any_eq_true]
    refine ⟨a, ha, (complexFrom_iff _ _).mpr ?_⟩
    simpa [Involved] using hi

/-- What is suggested: for each hole, a conditional expression with what the branches have there. -/
theorem C122_expressions (n : Count) (tests : List Expr) (avars : List Avar) (core : Block) (es : List Expr) (h : reportExpr n tests avars core = some es) :
    ternaries tests avars = some es := by
  rw [reportExpr] at h
  split at h
  · cases h
  rw [toExpr] at h
  split at h
  · cases h
  split at h
  · cases h
  split at h
  · cases h
  split at h
  · cases h
  rename_i es' hes
  rw [ifSaves] at h
  split at h
  · cases h
    exact hes
  · cases h

/-- C122: If conditional expressions are suggested, then these have the values that the branches have, and the program does the same, whatever it does: it
ends in the same way, with the same values of variables and everything else the same. What is missing is that this needs conditions without calls, that
conditions raise no exceptions, and functions that do not assign to the variables of conditions. -/
theorem C122_same_partial (n : Count) (tests : List Expr) (avars : List Avar) (core : Block) (es : List Expr) (h : reportExpr n tests avars core = some es)
    (hn : ∀ t ∈ tests, t.NoCalls) (hI : Keeps I (tests.flatMap Expr.vars)) (s : State V W) (hd : Decides I tests s) (k : Nat) :
    runB I k (withTernaries es core) s = runB I k (original tests avars core) s := by
  have hes := C122_expressions n tests avars core es h
  have hc := (C122_reported n tests avars core es h).1
  rw [testsChange, Bool.not_eq_false'] at hc
  rw [original_run k s tests avars core hn hd, withTernaries]
  symm
  refine runB_same hI (s₀ := s) ?_ k core .none s hc fun _ => Agree.refl s
  intro i t hg
  simp only [fillOf]
  have hget := ternaries_get tests avars es hes
  rcases hi : avars[i]? with _ | a
  · have : es[i]? = none := List.getElem?_eq_none (by rw [hget.1]; exact List.getElem?_eq_none_iff.mp hi)
    rw [this]
    rfl
  · obtain ⟨e, he, ht⟩ := hget.2 i a hi
    obtain ⟨b, hb, heq⟩ := ternary_eval (I := I) s t tests a.subs e ht hn hd hg
    simp only [he, Option.map_some, Option.getD_some, hb, heq]

/-! ### C125 -/

/-- What is to be used: the condition, or its negation if it is `True` in the `else`. -/
def use (t : Expr) (avars : List Avar) : Expr :=
  match avars with
  | [a] => if a.subs.head? = some (.bool true) then t else .not_ t
  | _ => t

/-- The code that is suggested. -/
def withUse (tests : List Expr) (avars : List Avar) (core : Block) : Block :=
  fillB (fun i => if i = 0 then use (tests.head?.getD (.hole 0)) avars else .hole i) core

/-- C125: it is suggested to use the condition only where there is one condition, whose variables are not changed before it is evaluated; the branches differ in
a truth value only; it is not what is returned or assigned to a variable; and if it is shorter. -/
theorem C125_reported (n : Count) (tests : List Expr) (avars : List Avar) (core : Block) (h : reportUse n tests avars core = some ()) :
    ∃ t a b c, tests = [t] ∧ avars = [a] ∧ a.subs = [.bool b, .bool c] ∧ a.around.head? ≠ some .store ∧ testsChange tests core = false ∧
      Shorter false (n.tokens (original tests avars core)) (n.stmts (original tests avars core)) ((n.tokens core : Int) - 1 + n.tokensE t) (n.stmts core) := by
  rw [reportUse] at h
  split at h
  · cases h
  rename_i hc
  rw [toUse.eq_def] at h
  split at h
  case h_2 => cases h
  rename_i t a
  split at h
  case h_2 => cases h
  rename_i b c hs
  split at h
  · cases h
  rename_i hstore
  rw [ifSaves] at h
  split at h
  case isFalse => cases h
  rename_i hsv
  exact ⟨t, a, b, c, rfl, rfl, hs, hstore, by simpa using hc, (saves_iff _ _ _ _ _).mp hsv⟩

/-- C125: If it is suggested to use the condition, then the program does the same with the condition, or with its negation if it is the `else` where there is
`True`. What is missing is that this needs branches that differ, conditions without calls that raise no exceptions, functions that do not assign to the variables of conditions, and
a value of the condition that is `True` or `False` unless it is negated. -/
theorem C125_same_partial (n : Count) (tests : List Expr) (avars : List Avar) (core : Block) (h : reportUse n tests avars core = some ())
    (hdiff : ∀ a ∈ avars, a.subs.Nodup) (hn : ∀ t ∈ tests, t.NoCalls) (hI : Keeps I (tests.flatMap Expr.vars)) (s : State V W) (hd : Decides I tests s)
    (hbool : ∀ t ∈ tests, use t avars = t → ∃ b, (eval I t s).1 = .ok (I.bool b)) (k : Nat) :
    runB I k (withUse tests avars core) s = runB I k (original tests avars core) s := by
  obtain ⟨t, a, b, c, rfl, rfl, hs, -, hc, -⟩ := C125_reported n tests avars core h
  rw [testsChange, Bool.not_eq_false'] at hc
  rw [original_run k s [t] [a] core hn hd, withUse]
  symm
  refine runB_same hI (s₀ := s) ?_ k core .none s hc fun _ => Agree.refl s
  intro i u hg
  have hnt := hn t (by simp)
  have hp := eval_pure (I := I) t u hnt
  have ha := eval_agree (I := I) t s u hnt fun x hx => hg x (by simp [hx])
  obtain ⟨v, hv, -⟩ := hd
  rw [hv] at ha
  cases i with
  | succ i => simp [fillOf]
  | zero =>
    have hbc : b ≠ c := by
      have := hdiff a (by simp)
      rw [hs] at this
      intro e
      simp [e] at this
    simp only [fillOf, List.getElem?_cons_zero, Option.map_some, Option.getD_some, hs, if_true, List.head?_cons, use, choose, hv]
    cases b
    · have : c = true := by cases c <;> simp_all
      subst this
      simp only [Option.some.injEq, Expr.bool.injEq, Bool.false_eq_true, if_false]
      rw [eval.eq_def I (.not_ t)]
      simp only
      rcases he : eval I t u with ⟨_ | w, u'⟩ <;> rw [he] at ha hp <;> cases ha
      cases hp
      by_cases ht : I.truth v = true
      · simp [ht, eval]
      · simp [ht, eval]
    · have : c = false := by cases c <;> simp_all
      subst this
      obtain ⟨d, hd⟩ := hbool t (by simp) (by simp [use, hs])
      rw [hv] at hd
      cases hd
      simp only [if_true]
      have he : eval I t u = (.ok (I.bool d), u) := Prod.ext ha hp
      rw [he, I.truth_bool]
      cases d <;> simp [eval]

/-! ### Examples -/

/-- A number of tokens, for examples. -/
def Expr.size : Expr → Nat
  | .const _ => 1
  | .bool _ => 1
  | .name _ => 1
  | .hole _ => 1
  | .call _ a b => a.size + b.size + 1
  | .op _ a b => a.size + b.size + 1
  | .not_ a => a.size + 1
  | .bool_ _ a b => a.size + b.size + 1
  | .tern c a b => c.size + a.size + b.size + 1

mutual
def Stmt.size : Stmt → Nat
  | .assign _ e => e.size + 1
  | .expr e => e.size
  | .ret e => e.size + 1
  | .brk => 1
  | .cont => 1
  | .if_ c b o => c.size + sizeB b + sizeB o + 1
  | .while_ c b o => c.size + sizeB b + sizeB o + 1
  | .for_ _ e b o => e.size + sizeB b + sizeB o + 2
  | .try_ b h o f => sizeB b + sizeB h + sizeB o + sizeB f + 2

def sizeB : List Stmt → Nat
  | [] => 0
  | s :: ss => s.size + sizeB ss
end

mutual
def Stmt.count : Stmt → Nat
  | .if_ _ b o => countB b + countB o + 1
  | .while_ _ b o => countB b + countB o + 1
  | .for_ _ _ b o => countB b + countB o + 1
  | .try_ b h o f => countB b + countB h + countB o + countB f + 1
  | _ => 1

/-- A number of statements, for examples. -/
def countB : List Stmt → Nat
  | [] => 0
  | s :: ss => s.count + countB ss
end

def exCount : Count := ⟨Expr.size, sizeB, countB⟩

/-- Values are numbers; the world is what has been printed. Function 0 prints its first argument, function 1 prints 7 and says whether nothing had been printed,
function 2 assigns 0 to the variable `c`; operator 0 is division. -/
def exInterp : Interp Nat (List Nat) where
  const k := k
  bool b := if b then 1 else 0
  truth v := v != 0
  truth_bool b := by cases b <;> rfl
  op f a b := if f = 0 then (if b = 0 then .error .valueError else .ok (a / b)) else .ok (a + b)
  call f a _ s :=
    if f = 0 then (.ok 0, { s with world := s.world ++ [a] })
    else if f = 1 then (.ok (if s.world = [] then 1 else 0), { s with world := s.world ++ [7] })
    else (.ok 0, s.set "c".toList 0)
  iter v s := (.ok (List.range v), s)

/-- Everything that is printed, and the value of a variable at the end. -/
def shown (x : String) (r : Res Nat (List Nat)) : Option (List Nat × Nat) := r.map fun p => (p.2.world, p.2.env x.toList)

def start (c : Nat) : State Nat (List Nat) := ⟨fun x => if x = "c".toList then c else 0, []⟩

/-- `print(e)` -/
def print (e : Expr) : Stmt := .expr (.call 0 e (.const 0))

theorem exKeeps (x : String) (h : x.toList ≠ "c".toList) : Keeps exInterp [x.toList] := by
  refine ⟨fun f v w s y hy => ?_, fun v s y _ => rfl⟩
  rw [List.mem_singleton] at hy
  subst hy
  simp only [exInterp]
  split
  · rfl
  · split
    · rfl
    · simp only [State.set, if_neg h]

/-- `if x: print(3) …`, with `x` unchanged: `print(3 if x else 4)` -/
def exCore : Block := [print (.hole 0), print (.name "y".toList), print (.name "z".toList), print (.const 6), print (.const 7)]

def exAvars : List Avar := [⟨[.const 3, .const 4], true, [.call 1, .other]⟩]

example : reportExpr exCount [.name "x".toList] exAvars exCore = some [.tern (.name "x".toList) (.const 3) (.const 4)] := by decide +kernel

example (k : Nat) : runB exInterp k (withTernaries [.tern (.name "x".toList) (.const 3) (.const 4)] exCore) (start 1) =
    runB exInterp k (original [.name "x".toList] exAvars exCore) (start 1) :=
  C122_same_partial exCount [.name "x".toList] exAvars exCore _ (by decide +kernel) (by intro t ht; rw [List.mem_singleton] at ht; subst ht; trivial)
    (exKeeps "x" (by decide)) (start 1) ⟨_, rfl, fun _ => trivial⟩ k

example : Involved ⟨[.const 3, .const 4], true, [.other, .call 2, .other]⟩ ∧ ¬Involved ⟨[.const 3, .const 4], true, [.call 1, .other]⟩ := by
  refine ⟨Or.inr (Or.inl ⟨2, by decide, by simp⟩), ?_⟩
  rintro (h | ⟨n, hn, h⟩ | h)
  · simp at h
  · simp at h
    omega
  · simp at h

/-- C122 is false if a condition has side effects: `if f(): a = 1; …; b = 1` is evaluated twice afterwards. -/
theorem C122_same_counterexample :
    ∃ (tests : List Expr) (avars : List Avar) (core : Block) (es : List Expr), reportExpr exCount tests avars core = some es ∧ Decides exInterp tests (start 1) ∧
      shown "b" (runB exInterp 1 (withTernaries es core) (start 1)) = some ([7, 5, 5, 5, 5, 7], 4) ∧
      shown "b" (runB exInterp 1 (original tests avars core) (start 1)) = some ([7, 5, 5, 5, 5], 3) :=
  ⟨[.call 1 (.const 0) (.const 0)], [⟨[.const 1, .const 2], true, [.store]⟩, ⟨[.const 3, .const 4], true, [.store]⟩],
    [.assign "a".toList (.hole 0), print (.const 5), print (.const 5), print (.const 5), print (.const 5), .assign "b".toList (.hole 1)], _, rfl,
    ⟨_, rfl, fun _ => trivial⟩, by decide +kernel, by decide +kernel⟩

/-- The same if a function that is called assigns to a variable of a condition. -/
theorem C122_calls_counterexample :
    ∃ (tests : List Expr) (avars : List Avar) (core : Block) (es : List Expr), reportExpr exCount tests avars core = some es ∧ (∀ t ∈ tests, t.NoCalls) ∧
      Decides exInterp tests (start 1) ∧
      shown "b" (runB exInterp 1 (withTernaries es core) (start 1)) = some ([5, 5], 4) ∧
      shown "b" (runB exInterp 1 (original tests avars core) (start 1)) = some ([5, 5], 3) :=
  ⟨[.name "c".toList], [⟨[.const 1, .const 2], true, [.store]⟩, ⟨[.const 3, .const 4], true, [.store]⟩],
    [.assign "a".toList (.hole 0), print (.const 5), print (.const 5), .expr (.call 2 (.const 0) (.const 0)), .assign "b".toList (.hole 1)], _, rfl,
    (by intro t ht; rw [List.mem_singleton] at ht; subst ht; trivial), ⟨_, rfl, fun _ => trivial⟩, by decide +kernel, by decide +kernel⟩

/-- The same if a condition raises an exception: something has been printed already. `if 1 / c: print(g(), 1) …`, with a call in the same statement -/
theorem C122_raises_counterexample :
    ∃ (tests : List Expr) (avars : List Avar) (core : Block) (es : List Expr), reportExpr exCount tests avars core = some es ∧ (∀ t ∈ tests, t.NoCalls) ∧
      shown "b" (runB exInterp 1 (withTernaries es core) (start 0)) = some ([5], 0) ∧
      shown "b" (runB exInterp 1 (original tests avars core) (start 0)) = some ([], 0) :=
  ⟨[.op 0 (.const 1) (.name "c".toList)], [⟨[.const 1, .const 2], true, [.other, .other]⟩],
    [.expr (.bool_ false (.call 0 (.const 5) (.const 0)) (.hole 0)), print (.const 5), print (.const 5), print (.const 5)], _, rfl,
    (by intro t ht; rw [List.mem_singleton] at ht; subst ht; exact ⟨trivial, trivial⟩), by decide +kernel, by decide +kernel⟩

/-- `if c: a = 1; c = 0; b = 3 …` is not reported. -/
example : reportExpr exCount [.name "c".toList] [⟨[.const 1, .const 2], true, [.store]⟩, ⟨[.const 3, .const 4], true, [.store]⟩]
    [.assign "a".toList (.hole 0), print (.const 5), print (.const 5), print (.const 5), .assign "c".toList (.const 0), .assign "b".toList (.hole 1)] = none := by
  decide +kernel

/-- But `if c: a = 1; c = 0 …` may be: the variable is changed later. -/
example : reportExpr exCount [.name "c".toList] [⟨[.const 1, .const 2], true, [.store]⟩]
    [.assign "a".toList (.hole 0), print (.const 5), print (.const 5), print (.const 5), .assign "c".toList (.const 0)] =
    some [.tern (.name "c".toList) (.const 1) (.const 2)] := by
  decide +kernel

/-- `if c: print(False) else: print(True)`: `print(not c)` -/
def exUse (b : Bool) : List Avar := [⟨[.bool b, .bool !b], true, [.call 1, .other]⟩]

example : reportUse exCount [.name "x".toList] (exUse false) [print (.hole 0)] = some () := by decide +kernel

example (k : Nat) (s : State Nat (List Nat)) : runB exInterp k [print (.not_ (.name "x".toList))] s =
    runB exInterp k (original [.name "x".toList] (exUse false) [print (.hole 0)]) s :=
  C125_same_partial exCount [.name "x".toList] (exUse false) [print (.hole 0)] (by decide +kernel)
    (by intro a ha; rw [exUse, List.mem_singleton] at ha; subst ha; decide)
    (by intro t ht; rw [List.mem_singleton] at ht; subst ht; trivial) (exKeeps "x" (by decide)) s ⟨_, rfl, fun _ => trivial⟩
    (by intro t ht; rw [List.mem_singleton] at ht; subst ht; intro h; simp [use, exUse] at h) k

/-- C125 is false if the value of the condition is not a truth value: `if c: print(True) else: print(False)`. -/
theorem C125_same_counterexample :
    ∃ (tests : List Expr) (avars : List Avar) (core : Block), reportUse exCount tests avars core = some () ∧ (∀ t ∈ tests, t.NoCalls) ∧
      Decides exInterp tests (start 5) ∧ (∀ t ∈ tests, use t avars = t) ∧
      shown "b" (runB exInterp 1 (withUse tests avars core) (start 5)) = some ([5], 0) ∧
      shown "b" (runB exInterp 1 (original tests avars core) (start 5)) = some ([1], 0) :=
  ⟨[.name "c".toList], exUse true, [print (.hole 0)], by decide +kernel, (by intro t ht; rw [List.mem_singleton] at ht; subst ht; trivial),
    ⟨_, rfl, fun _ => trivial⟩, (by intro t ht; rfl), by decide +kernel, by decide +kernel⟩

/-- C125: the message says to use the condition; if it is `True` in the `else`, then it must be the negation. -/
theorem C125_negated_counterexample :
    ∃ (tests : List Expr) (avars : List Avar) (core : Block), reportUse exCount tests avars core = some () ∧
      shown "b" (runB exInterp 1 (fillB (fun _ => tests.head?.getD (.hole 0)) core) (start 1)) = some ([1], 0) ∧
      shown "b" (runB exInterp 1 (original tests avars core) (start 1)) = some ([0], 0) :=
  ⟨[.name "c".toList], exUse false, [print (.hole 0)], by decide +kernel, by decide +kernel, by decide +kernel⟩

end Verif.SimilarIf
