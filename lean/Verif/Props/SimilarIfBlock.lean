import Verif.Props.SimilarIfExpr

/-!
C124: the branches of an `if` are similar, and it is suggested to move the `if` into the statements.
-/

namespace Verif.SimilarIf

variable {V W : Type} {I : Interp V W}

mutual
/-- No hole is in code that cannot be reached. -/
def Stmt.Reached : Stmt → Prop
  | .if_ _ b o => ReachedB b ∧ ReachedB o
  | .while_ _ b o => ReachedB b ∧ ReachedB o
  | .for_ _ _ b o => ReachedB b ∧ ReachedB o
  | .try_ b h o f => ReachedB b ∧ ReachedB h ∧ ReachedB o ∧ ReachedB f
  | _ => True

/-- No hole is in code that cannot be reached. -/
def ReachedB : List Stmt → Prop
  | [] => True
  | s :: ss => (s.holey = true → ∀ l, live s l = true) ∧ s.Reached ∧ ReachedB ss
end

theorem fill_none (σ : Nat → Expr) : ∀ e : Expr, e.holey = false → e.fill σ = e
  | .const _, _ => rfl
  | .bool _, _ => rfl
  | .name _, _ => rfl
  | .hole _, h => nomatch h
  | .call f a b, h => by
    rw [Expr.holey, Bool.or_eq_false_iff] at h
    rw [Expr.fill, fill_none σ a h.1, fill_none σ b h.2]
  | .op f a b, h => by
    rw [Expr.holey, Bool.or_eq_false_iff] at h
    rw [Expr.fill, fill_none σ a h.1, fill_none σ b h.2]
  | .not_ a, h => by
    rw [Expr.holey] at h
    rw [Expr.fill, fill_none σ a h]
  | .bool_ c a b, h => by
    rw [Expr.holey, Bool.or_eq_false_iff] at h
    rw [Expr.fill, fill_none σ a h.1, fill_none σ b h.2]
  | .tern c a b, h => by
    rw [Expr.holey, Bool.or_eq_false_iff, Bool.or_eq_false_iff] at h
    rw [Expr.fill, fill_none σ c h.1.1, fill_none σ a h.1.2, fill_none σ b h.2]

mutual
theorem fill_noneS (σ : Nat → Expr) : ∀ t : Stmt, t.holey = false → t.fill σ = t
  | .assign x e, h => by rw [Stmt.holey] at h; rw [Stmt.fill, fill_none σ e h]
  | .expr e, h => by rw [Stmt.holey] at h; rw [Stmt.fill, fill_none σ e h]
  | .ret e, h => by rw [Stmt.holey] at h; rw [Stmt.fill, fill_none σ e h]
  | .brk, _ => rfl
  | .cont, _ => rfl
  | .if_ c b o, h => by
    rw [Stmt.holey, Bool.or_eq_false_iff, Bool.or_eq_false_iff] at h
    rw [Stmt.fill, fill_none σ c h.1.1, fill_noneB σ b h.1.2, fill_noneB σ o h.2]
  | .while_ c b o, h => by
    rw [Stmt.holey, Bool.or_eq_false_iff, Bool.or_eq_false_iff] at h
    rw [Stmt.fill, fill_none σ c h.1.1, fill_noneB σ b h.1.2, fill_noneB σ o h.2]
  | .for_ x e b o, h => by
    rw [Stmt.holey, Bool.or_eq_false_iff, Bool.or_eq_false_iff] at h
    rw [Stmt.fill, fill_none σ e h.1.1, fill_noneB σ b h.1.2, fill_noneB σ o h.2]
  | .try_ b x o f, h => by
    rw [Stmt.holey, Bool.or_eq_false_iff, Bool.or_eq_false_iff, Bool.or_eq_false_iff] at h
    rw [Stmt.fill, fill_noneB σ b h.1.1.1, fill_noneB σ x h.1.1.2, fill_noneB σ o h.1.2, fill_noneB σ f h.2]

theorem fill_noneB (σ : Nat → Expr) : ∀ ts : List Stmt, holeyB ts = false → fillB σ ts = ts
  | [], _ => rfl
  | t :: ts, h => by
    rw [holeyB, Bool.or_eq_false_iff] at h
    rw [fillB, fill_noneS σ t h.1, fill_noneB σ ts h.2]
end

theorem fillB_append (σ : Nat → Expr) : ∀ a b : Block, fillB σ (a ++ b) = fillB σ a ++ fillB σ b
  | [], b => rfl
  | t :: a, b => by rw [List.cons_append, fillB, fillB, fillB_append σ a b, List.cons_append]

theorem runB_append (n : Nat) (b : Block) : ∀ (a : Block) (s : State V W), runB I n (a ++ b) s = next (runB I n a s) (runB I n b)
  | [], s => by rw [runB.eq_def I n [] s]; rfl
  | t :: a, s => by
    rw [List.cons_append, runB, runB]
    rcases run I n t s with _ | ⟨o, s'⟩
    · rfl
    · cases o
      · exact runB_append n b a s'
      all_goals rfl

theorem upTo_spec : ∀ ts : Block, (upTo ts).1 ++ (upTo ts).2 = ts ∧ holeyB (upTo ts).2 = false
  | [] => ⟨rfl, rfl⟩
  | t :: ts => by
    have := upTo_spec ts
    rw [upTo]
    split
    · exact ⟨by simp [this.1], this.2⟩
    · rename_i h
      split
      · exact ⟨rfl, by simpa using h⟩
      · rename_i h'
        refine ⟨rfl, ?_⟩
        simp only [holeyB, Bool.or_eq_false_iff]
        exact ⟨by simpa using h', by simpa using h⟩

mutual
theorem moveS_run {xs : List Str} (hI : Keeps I xs) (s₀ : State V W) (σ : Nat → Expr) (n : Nat) (ifs : Block → Block)
    (hifs : ∀ b s, Agree xs s₀ s → runB I n (ifs b) s = runB I n (fillB σ b) s) :
    ∀ (t : Stmt) (l : Live) (s : State V W), canMove t = true → t.Reached → safe xs t l = true → (live t l = true → Agree xs s₀ s) →
      run I n (t.fill σ) s = run I n (moveS ifs t) s
  | .assign _ _, l, s, hm, _, _, _ => by cases hm
  | .expr _, l, s, hm, _, _, _ => by cases hm
  | .ret _, l, s, hm, _, _, _ => by cases hm
  | .brk, l, s, hm, _, _, _ => by cases hm
  | .cont, l, s, hm, _, _, _ => by cases hm
  | .if_ c b o, l, s, hm, hr, hs, hl => by
    simp only [canMove, Bool.and_eq_true, Bool.not_eq_true'] at hm
    simp only [safe, Bool.and_eq_true] at hs
    rw [Stmt.Reached] at hr
    rw [Stmt.fill, moveS]
    have := if_same (τ := σ) hI (s₀ := s₀) (fun _ _ _ => rfl) (n := n) (c := c) (b := b) (o := o) (b' := if holeyB b then moveB ifs b else b)
      (o' := if holeyB o then moveB ifs o else o) (l := l) (s := s) (by rw [live] at hl; exact hl)
      (fun s h => moveB_run' hI s₀ σ n ifs hifs b l s hr.1 hs.1 h) fun s h => moveB_run' hI s₀ σ n ifs hifs o l s hr.2 hs.2 h
    rw [this, fill_none σ c hm.1]
  | .while_ c b o, l, s, hm, hr, hs, hl => by
    simp only [canMove, Bool.and_eq_true, Bool.not_eq_true'] at hm
    have hs' := hs
    simp only [safe, Bool.and_eq_true] at hs'
    rw [Stmt.Reached] at hr
    rw [Stmt.fill, moveS]
    have := while_same (τ := σ) hI (s₀ := s₀) (fun _ _ _ => rfl) (n := n) (c := c) (b := b) (o := o) (b' := if holeyB b then moveB ifs b else b)
      (o' := if holeyB o then moveB ifs o else o) (l := l) (s := s) hs hl
      (fun s h => moveB_run' hI s₀ σ n ifs hifs b _ s hr.1 hs'.1 h) fun s h => moveB_run' hI s₀ σ n ifs hifs o l s hr.2 hs'.2 h
    rw [this, fill_none σ c hm.1]
  | .for_ x e b o, l, s, hm, hr, hs, hl => by
    simp only [canMove, Bool.and_eq_true, Bool.not_eq_true'] at hm
    have hs' := hs
    simp only [safe, Bool.and_eq_true] at hs'
    rw [Stmt.Reached] at hr
    rw [Stmt.fill, moveS]
    have := for_same (τ := σ) hI (s₀ := s₀) (fun _ _ _ => rfl) (n := n) (x := x) (e := e) (b := b) (o := o) (b' := if holeyB b then moveB ifs b else b)
      (o' := if holeyB o then moveB ifs o else o) (l := l) (s := s) hs hl
      (fun s h => moveB_run' hI s₀ σ n ifs hifs b _ s hr.1 hs'.1.2 h) fun s h => moveB_run' hI s₀ σ n ifs hifs o l s hr.2 hs'.2 h
    rw [this, fill_none σ e hm.1]
  | .try_ b h o f, l, s, hm, hr, hs, hl => by
    have hs' := hs
    simp only [safe, Bool.and_eq_true] at hs'
    obtain ⟨⟨⟨⟨⟨⟨⟨hb, hh⟩, ho⟩, h1⟩, h2⟩, h3⟩, h4⟩, h5⟩ := hs'
    rw [Stmt.Reached] at hr
    rw [Stmt.fill, moveS]
    exact try_same hI (s₀ := s₀) hs hl (moveB_run' hI s₀ σ n ifs hifs b _ s hr.1 hb (by rw [live] at hl; exact hl))
      (fun s hs => moveB_run' hI s₀ σ n ifs hifs h _ s hr.2.1 hh hs) (fun s hs => moveB_run' hI s₀ σ n ifs hifs o _ s hr.2.2.1 ho hs)
      fun o' s hs => moveB_run' hI s₀ σ n ifs hifs f _ s hr.2.2.2 (safe_final ⟨h1, h2, h3, h4, h5⟩ o') hs

theorem moveB_run' {xs : List Str} (hI : Keeps I xs) (s₀ : State V W) (σ : Nat → Expr) (n : Nat) (ifs : Block → Block)
    (hifs : ∀ b s, Agree xs s₀ s → runB I n (ifs b) s = runB I n (fillB σ b) s) (ts : List Stmt) (l : Live) (s : State V W) (hr : ReachedB ts)
    (hs : safeB xs ts l = true) (hl : liveB ts l = true → Agree xs s₀ s) :
    runB I n (fillB σ ts) s = runB I n (if holeyB ts then moveB ifs ts else ts) s := by
  by_cases hh : holeyB ts = true
  · rw [if_pos hh]
    exact moveB_run hI s₀ σ n ifs hifs ts l s hr hs hl
  · rw [if_neg hh, fill_noneB σ ts (by simpa using hh)]

/-- Statements into which an `if` has been moved do what the branch does. -/
theorem moveB_run {xs : List Str} (hI : Keeps I xs) (s₀ : State V W) (σ : Nat → Expr) (n : Nat) (ifs : Block → Block)
    (hifs : ∀ b s, Agree xs s₀ s → runB I n (ifs b) s = runB I n (fillB σ b) s) :
    ∀ (ts : List Stmt) (l : Live) (s : State V W), ReachedB ts → safeB xs ts l = true → (liveB ts l = true → Agree xs s₀ s) →
      runB I n (fillB σ ts) s = runB I n (moveB ifs ts) s
  | [], l, s, _, _, _ => by rw [fillB, moveB]
  | t :: ts, l, s, hr, hs, hl => by
    have hs' := hs
    simp only [safeB, Bool.and_eq_true] at hs'
    rw [liveB] at hl
    rw [moveB]
    rw [ReachedB] at hr
    split
    · rename_i ht
      have ht : t.holey = false := by simpa using ht
      rw [fillB, runB, runB]
      have := run_keeps hI σ n s₀ t _ s hs'.1 hl
      rw [fill_noneS σ t ht] at this ⊢
      exact next_same this fun s h => moveB_run hI s₀ σ n ifs hifs ts l s hr.2.2 hs'.2 h
    · rename_i ht
      have ht : t.holey = true := by simpa using ht
      split
      · rename_i hc
        simp only [Bool.and_eq_true, Bool.not_eq_true'] at hc
        rw [fillB, runB, runB, fill_noneB σ ts hc.1, moveS_run hI s₀ σ n ifs hifs t _ s hc.2 hr.2.1 hs'.1 hl]
      · have hsp := upTo_spec (t :: ts)
        rw [runB_append, hifs _ s (hl (hr.1 ht _))]
        conv => lhs; rw [← hsp.1, fillB_append, fill_noneB σ _ hsp.2, runB_append]
end

/-- The first statement of what the branches have in common is one that the `if` can be moved into: what differs is in one of its blocks. -/
def OneBlock : Stmt → Prop
  | .if_ c b o => c.holey = false ∧ (holeyB b = true ↔ holeyB o = false)
  | .while_ c b o => c.holey = false ∧ (holeyB b = true ↔ holeyB o = false)
  | .for_ _ e b o => e.holey = false ∧ (holeyB b = true ↔ holeyB o = false)
  | .try_ b h o f => ∃ i < 4, ∀ j < 4, [holeyB b, holeyB h, holeyB o, holeyB f][j]? = some true ↔ j = i
  | _ => False

/-- C124: It is suggested to move an `if` into statements only where no variable of a condition is changed before what differs, where the first of the statements is one
that it can be moved into, and if it is shorter. -/
theorem C124_reported (n : Count) (tests : List Expr) (avars : List Avar) (core : Block) (h : reportBlock n tests avars core = some ()) :
    testsChange tests core = false ∧ (∃ t ts, core = t :: ts ∧ OneBlock t) ∧
      Shorter false (n.tokens (original tests avars core)) (n.stmts (original tests avars core)) (n.tokens (movedCore tests core)) (n.stmts (movedCore tests core)) := by
  rw [reportBlock] at h
  split at h
  · cases h
  rename_i hc
  rw [intoBlock.eq_def] at h
  split at h
  · cases h
  rename_i t ts
  split at h
  case isFalse => cases h
  rename_i hm
  rw [ifSaves] at h
  split at h
  case isFalse => cases h
  rename_i hs
  refine ⟨by simpa using hc, ⟨t, ts, rfl, ?_⟩, (saves_iff _ _ _ _ _).mp hs⟩
  cases t with
  | if_ c b o =>
    simp only [canMove, Bool.and_eq_true, Bool.not_eq_true', bne_iff_ne] at hm
    exact ⟨hm.1, by cases hb : holeyB b <;> cases ho : holeyB o <;> simp_all⟩
  | while_ c b o =>
    simp only [canMove, Bool.and_eq_true, Bool.not_eq_true', bne_iff_ne] at hm
    exact ⟨hm.1, by cases hb : holeyB b <;> cases ho : holeyB o <;> simp_all⟩
  | for_ x c b o =>
    simp only [canMove, Bool.and_eq_true, Bool.not_eq_true', bne_iff_ne] at hm
    exact ⟨hm.1, by cases hb : holeyB b <;> cases ho : holeyB o <;> simp_all⟩
  | try_ b x o f =>
    rw [canMove] at hm
    rw [OneBlock]
    revert hm
    clear h hs hc
    cases holeyB b <;> cases holeyB x <;> cases holeyB o <;> cases holeyB f <;> decide
  | _ => cases hm

/-- C124: If it is suggested to move an `if` into the statements, then the program does the same, whatever it does. What is missing is that this needs conditions
without calls, that conditions raise no exceptions, functions that do not assign to the variables of conditions, and no code that cannot be reached around what differs. -/
theorem C124_same_partial (n : Count) (tests : List Expr) (avars : List Avar) (core : Block) (h : reportBlock n tests avars core = some ())
    (hn : ∀ t ∈ tests, t.NoCalls) (hI : Keeps I (tests.flatMap Expr.vars)) (s : State V W) (hd : Decides I tests s) (hr : ReachedB core) (k : Nat) :
    runB I k (moved tests avars core) s = runB I k (original tests avars core) s := by
  have hc := (C124_reported n tests avars core h).1
  rw [testsChange, Bool.not_eq_false'] at hc
  rw [original_run k s tests avars core hn hd, moved]
  symm
  refine moveB_run hI s _ k _ ?_ core .none s hr hc fun _ => Agree.refl s
  intro b t hg
  have := choose_agree (I := I) tests s t hn hg
  have hd' := decides_agree tests s t hn hg hd
  rw [← this]
  exact original_run k t tests avars b hn hd'

/-! ### Examples -/

/-- `for i in range(3): print(1)`, in the other branch `for i in range(3): print(2)` -/
def exLoop : Block := [.for_ "i".toList (.const 3) [print (.name "i".toList), print (.hole 0)] []]

def exLoopAvars : List Avar := [⟨[.const 1, .const 2], true, [.call 1, .other]⟩]

example : reportBlock exCount [.name "x".toList] exLoopAvars exLoop = some () := by decide +kernel

example : moved [.name "x".toList] exLoopAvars exLoop =
    [.for_ "i".toList (.const 3) [print (.name "i".toList), .if_ (.name "x".toList) [print (.const 1)] [print (.const 2)]] []] := rfl

example (k : Nat) (s : State Nat (List Nat)) : runB exInterp k (moved [.name "x".toList] exLoopAvars exLoop) s =
    runB exInterp k (original [.name "x".toList] exLoopAvars exLoop) s :=
  C124_same_partial exCount [.name "x".toList] exLoopAvars exLoop (by decide +kernel) (by intro t ht; rw [List.mem_singleton] at ht; subst ht; trivial)
    (exKeeps "x" (by decide)) s ⟨_, rfl, fun _ => trivial⟩
    (by simp [exLoop, ReachedB, Stmt.Reached, live, liveB, print, Expr.holey, Stmt.holey]) k

/-- C124 is false if a condition has side effects: it is evaluated in each iteration afterwards. -/
theorem C124_same_counterexample :
    ∃ (tests : List Expr) (avars : List Avar) (core : Block), reportBlock exCount tests avars core = some () ∧ Decides exInterp tests (start 1) ∧ ReachedB core ∧
      shown "b" (runB exInterp 1 (moved tests avars core) (start 1)) = some ([7, 1, 7, 2], 0) ∧
      shown "b" (runB exInterp 1 (original tests avars core) (start 1)) = some ([7, 1, 1], 0) :=
  ⟨[.call 1 (.const 0) (.const 0)], exLoopAvars, [.for_ "i".toList (.const 2) [print (.hole 0)] []], by decide +kernel, ⟨_, rfl, fun _ => trivial⟩,
    by simp [ReachedB, Stmt.Reached, live, liveB, print, Expr.holey, Stmt.holey], by decide +kernel, by decide +kernel⟩

/-- The same if a function that is called assigns to a variable of a condition. -/
theorem C124_calls_counterexample :
    ∃ (tests : List Expr) (avars : List Avar) (core : Block), reportBlock exCount tests avars core = some () ∧ (∀ t ∈ tests, t.NoCalls) ∧
      Decides exInterp tests (start 1) ∧ ReachedB core ∧
      shown "b" (runB exInterp 1 (moved tests avars core) (start 1)) = some ([1, 2], 0) ∧
      shown "b" (runB exInterp 1 (original tests avars core) (start 1)) = some ([1, 1], 0) :=
  ⟨[.name "c".toList], exLoopAvars, [.for_ "i".toList (.const 2) [print (.hole 0), .expr (.call 2 (.const 0) (.const 0))] []], by decide +kernel,
    (by intro t ht; rw [List.mem_singleton] at ht; subst ht; trivial), ⟨_, rfl, fun _ => trivial⟩,
    by simp [ReachedB, Stmt.Reached, live, liveB, print, Expr.holey, Stmt.holey], by decide +kernel, by decide +kernel⟩

/-- An exception is raised. -/
def raised (r : Res Nat (List Nat)) : Bool :=
  match r with
  | some (.raise _, _) => true
  | _ => false

/-- The same if a condition raises an exception: it may not be evaluated any more. -/
theorem C124_raises_counterexample :
    ∃ (tests : List Expr) (avars : List Avar) (core : Block), reportBlock exCount tests avars core = some () ∧ (∀ t ∈ tests, t.NoCalls) ∧ ReachedB core ∧
      raised (runB exInterp 1 (moved tests avars core) (start 0)) = false ∧ raised (runB exInterp 1 (original tests avars core) (start 0)) = true :=
  ⟨[.op 0 (.const 1) (.name "c".toList)], exLoopAvars, [.for_ "i".toList (.const 0) [print (.hole 0)] []], by decide +kernel,
    (by intro t ht; rw [List.mem_singleton] at ht; subst ht; exact ⟨trivial, trivial⟩),
    by simp [ReachedB, Stmt.Reached, live, liveB, print, Expr.holey, Stmt.holey], by decide +kernel, by decide +kernel⟩

/-- The same if what differs cannot be reached: the variable of the condition is changed before. -/
theorem C124_unreachable_counterexample :
    ∃ (tests : List Expr) (avars : List Avar) (core : Block), reportBlock exCount tests avars core = some () ∧ (∀ t ∈ tests, t.NoCalls) ∧
      Decides exInterp tests (start 1) ∧ Keeps { exInterp with call := fun _ _ _ s => (.ok 0, s) } (tests.flatMap Expr.vars) ∧
      raised (runB { exInterp with call := fun _ _ _ s => (.ok 0, s) } 1 (moved tests avars core) (start 1)) = true ∧
      raised (runB { exInterp with call := fun _ _ _ s => (.ok 0, s) } 1 (original tests avars core) (start 1)) = false :=
  ⟨[.op 0 (.const 1) (.name "c".toList)], [⟨[.const 1, .const 2], true, [.call 1, .other]⟩, ⟨[.const 3, .const 4], true, [.call 1, .other]⟩],
    [.if_ (.const 1) [print (.const 5), print (.const 5), .assign "c".toList (.const 0),
      .if_ (.const 1) [.ret (.const 0), print (.hole 0)] [.ret (.const 0), print (.hole 1)]] []], by decide +kernel,
    (by intro t ht; rw [List.mem_singleton] at ht; subst ht; exact ⟨trivial, trivial⟩), ⟨_, rfl, fun _ => trivial⟩,
    ⟨fun _ _ _ _ _ _ => rfl, fun _ _ _ _ => rfl⟩, by decide +kernel, by decide +kernel⟩

/-- `if c: for i in …: c = 0; print(1)` is not reported: the variable is changed in between. -/
example : reportBlock exCount [.name "c".toList] exLoopAvars [.for_ "i".toList (.const 3) [print (.hole 0), .assign "c".toList (.const 0)] []] = none := by
  decide +kernel

end Verif.SimilarIf
