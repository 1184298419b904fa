import Verif.Props.SimilarIfExpr
import Verif.Props.Z3Block
import Verif.Props.ForEach
import Verif.Props.Purity
import Verif.Model.FlowRun
import Verif.Model.Loops
import Verif.Model.CommonBranches

/-!
What the models of programs do with the statements of Python, on small programs. The suggestions of EduLint and its graphs are compared with these
models in other files; here they are compared with the Python language reference.
-/

namespace Verif

/-! ### `Model/SimilarIf.lean`: 8.2 `while`, 8.3 `for`, 8.4 `try` -/

namespace SimilarIf

/-- What is printed, and how the program ends: with 0 for the end of the program, 1 for `break`, 2 for `continue`, 3 for `return` and 4 for
exceptions. -/
def outcome : Res Nat (List Nat) → Option (List Nat × Nat)
  | none => none
  | some (.normal, s) => some (s.world, 0)
  | some (.brk, s) => some (s.world, 1)
  | some (.cont, s) => some (s.world, 2)
  | some (.ret _, s) => some (s.world, 3)
  | some (.raise _, s) => some (s.world, 4)

def say (k : Nat) : Stmt := print (.const k)

/-- `1 / 0` -/
def fails : Stmt := .expr (.op 0 (.const 1) (.const 0))

def does (b : Block) : Option (List Nat × Nat) := outcome (runB exInterp 5 b (start 1))

/-- `else` is executed when the condition is false, and not after `break`; `continue` goes back to the condition. -/
example : does [.while_ (.bool true) [say 1, .brk, say 2] [say 3], say 4] = some ([1, 4], 0) ∧
    does [.while_ (.bool false) [say 1] [say 3], say 4] = some ([3, 4], 0) ∧
    does [.while_ (.name "c".toList) [.assign "c".toList (.bool false), say 1, .cont, say 2] [say 3], say 4] = some ([1, 3, 4], 0) ∧
    does [.while_ (.bool true) [say 1, .ret (.const 0)] [say 3], say 4] = some ([1], 3) ∧
    does [.while_ (.bool true) [fails] [say 3], say 4] = some ([], 4) ∧
    does [.while_ (.op 0 (.const 1) (.const 0)) [say 1] [say 3], say 4] = some ([], 4) ∧
    does [.while_ (.bool true) [say 1] []] = none := by
  decide +kernel

/-- `for` assigns the elements in turn; the rest is as for `while`. A jump in an `else` leaves the loop around. -/
example : does [.for_ "i".toList (.const 3) [print (.name "i".toList), .cont, say 9] [say 3], print (.name "i".toList)] = some ([0, 1, 2, 3, 2], 0) ∧
    does [.for_ "i".toList (.const 3) [print (.name "i".toList), .if_ (.name "i".toList) [.brk] []] [say 3], say 4] = some ([0, 1, 4], 0) ∧
    does [.for_ "i".toList (.const 0) [say 1] [say 3], say 4] = some ([3, 4], 0) ∧
    does [.for_ "i".toList (.const 2) [.for_ "j".toList (.const 1) [say 1] [.brk], say 2] [say 3], say 4] = some ([1, 4], 0) ∧
    does [.for_ "i".toList (.const 3) [print (.name "i".toList), .ret (.const 0)] [say 3], say 4] = some ([0], 3) ∧
    does [.for_ "i".toList (.op 0 (.const 1) (.const 0)) [say 1] [say 3], say 4] = some ([], 4) := by
  decide +kernel

/-- The handler is executed if the body raises, `else` if it ends normally, and `finally` in any case. What is raised, or how it is left otherwise, by
`finally` counts. -/
example : does [.try_ [say 1, fails, say 2] [say 3] [say 4] [say 5], say 6] = some ([1, 3, 5, 6], 0) ∧
    does [.try_ [say 1] [say 3] [say 4] [say 5], say 6] = some ([1, 4, 5, 6], 0) ∧
    does [.try_ [say 1, .ret (.const 0)] [say 3] [say 4] [say 5], say 6] = some ([1, 5], 3) ∧
    does [.try_ [fails] [say 3, fails] [say 4] [say 5], say 6] = some ([3, 5], 4) ∧
    does [.try_ [say 1] [say 3] [fails] [say 5], say 6] = some ([1, 5], 4) ∧
    does [.try_ [fails] [fails] [] [.ret (.const 0)], say 6] = some ([], 3) ∧
    does [.for_ "i".toList (.const 2) [.try_ [.ret (.const 0)] [] [] [say 5, .brk]] [say 3], say 6] = some ([5, 6], 0) ∧
    does [.for_ "i".toList (.const 2) [.try_ [.cont] [say 3] [say 4] [say 5], say 6] [say 7]] = some ([5, 5, 7], 0) := by
  decide +kernel

/-- One branch of an `if` is executed; nothing is after a jump or an exception. -/
example : does [.if_ (.bool true) [say 1] [say 2], say 3] = some ([1, 3], 0) ∧ does [.if_ (.bool false) [say 1] [say 2], say 3] = some ([2, 3], 0) ∧
    does [.if_ (.op 0 (.const 1) (.const 0)) [say 1] [say 2], say 3] = some ([], 4) ∧ does [say 1, fails, say 2] = some ([1], 4) ∧
    does [say 1, .brk, say 2] = some ([1], 1) ∧ does [say 1, .cont, say 2] = some ([1], 2) := by
  decide +kernel

/-- Values of expressions, and what is printed by them. -/
def value (e : Expr) : Option (Nat × List Nat) :=
  match eval exInterp e (start 1) with
  | (.ok v, s) => some (v, s.world)
  | (.error _, _) => none

/-- `print(k)`, which is `None` -/
def says (k : Nat) : Expr := .call 0 (.const k) (.const 0)

/-- 6.11 Boolean operations, 6.13 conditional expressions: an operand is the value, and only the operands that are needed are evaluated, from left to
right. -/
example : value (.bool_ true (.const 3) (.const 4)) = some (4, []) ∧ value (.bool_ true (.const 0) (says 4)) = some (0, []) ∧
    value (.bool_ false (.const 3) (says 4)) = some (3, []) ∧ value (.bool_ false (says 2) (.const 4)) = some (4, [2]) ∧
    value (.not_ (.const 3)) = some (0, []) ∧ value (.not_ (.const 0)) = some (1, []) ∧
    value (.tern (.const 1) (says 2) (says 3)) = some (0, [2]) ∧ value (.tern (.const 0) (says 2) (says 3)) = some (0, [3]) ∧
    value (.op 1 (says 2) (says 3)) = some (0, [2, 3]) ∧ value (.call 0 (.op 1 (says 2) (.const 5)) (says 3)) = some (0, [2, 3, 5]) ∧
    value (.op 0 (.const 1) (.const 0)) = none ∧ value (.bool_ true (.const 0) (.op 0 (.const 1) (.const 0))) = some (0, []) := by
  decide +kernel

end SimilarIf

/-! ### `Model/FlowRun.lean` -/

namespace Flow

theorem leaf_iff (W : World) (l : Nat) (t : List Nat) (o : Out) :
    Leaf W l t o ↔ (t = [l] ∧ (o = .normal ∨ o = .cut ∨ ∃ e, W.raises l e ∧ o = .raise e)) ∨ (t = [] ∧ o = .cut) := by
  constructor
  · rintro (_ | h | _ | _) <;> simp_all
  · rintro (⟨rfl, rfl | rfl | ⟨e, h, rfl⟩⟩ | ⟨rfl, rfl⟩)
    · exact .ok
    · exact .after
    · exact .raise h
    · exact .cut

theorem seq_iff (A B : Beh) (t : List Nat) (o : Out) : Seq A B t o ↔ (∃ t1, A t1 .normal ∧ ∃ t2, B t2 o ∧ t = t1 ++ t2) ∨ (A t o ∧ o ≠ .normal) := by
  constructor
  · rintro (⟨h1, h2⟩ | ⟨h1, h2⟩)
    · exact .inl ⟨_, h1, _, h2, rfl⟩
    · exact .inr ⟨h1, h2⟩
  · rintro (⟨t1, h1, t2, h2, rfl⟩ | ⟨h1, h2⟩)
    · exact .both h1 h2
    · exact .first h1 h2

theorem skip_iff (t : List Nat) (o : Out) : Skip t o ↔ t = [] ∧ (o = .normal ∨ o = .cut) := by
  constructor
  · rintro (_ | _) <;> simp
  · rintro ⟨rfl, rfl | rfl⟩
    · exact .ok
    · exact .cut

theorem alt_iff (A B : Beh) (t : List Nat) (o : Out) : Alt A B t o ↔ A t o ∨ B t o := by
  constructor
  · rintro (h | h)
    · exact .inl h
    · exact .inr h
  · rintro (h | h)
    · exact .left h
    · exact .right h

theorem jump_iff (j : Jump) (t : List Nat) (o : Out) : JumpRun j t o ↔ t = [] ∧ (o = .cut ∨ (j = .brk ∧ o = .brk) ∨ (j = .cont ∧ o = .cont) ∨
    (j = .ret ∧ o = .ret) ∨ ∃ n e, j = .raise n ∧ o = .raise e) := by
  constructor
  · rintro (_ | _ | _ | _ | _) <;> simp
  · rintro ⟨rfl, rfl | ⟨rfl, rfl⟩ | ⟨rfl, rfl⟩ | ⟨rfl, rfl⟩ | ⟨n, e, rfl, rfl⟩⟩
    · exact .cut
    · exact .brk
    · exact .cont
    · exact .ret
    · exact .raise

theorem try_iff (B : Beh) (H : Str → Beh) (E : Beh) (t : List Nat) (o : Out) : TryRun B H E t o ↔ (∃ t1, B t1 .normal ∧ ∃ t2, E t2 o ∧ t = t1 ++ t2) ∨
    (∃ e t1, B t1 (.raise e) ∧ ∃ t2, H e t2 o ∧ t = t1 ++ t2) ∨ (B t o ∧ o ≠ .normal ∧ ∀ e, o ≠ .raise e) := by
  constructor
  · rintro (⟨h1, h2⟩ | ⟨h1, h2⟩ | ⟨h1, h2, h3⟩)
    · exact .inl ⟨_, h1, _, h2, rfl⟩
    · exact .inr (.inl ⟨_, _, h1, _, h2, rfl⟩)
    · exact .inr (.inr ⟨h1, h2, h3⟩)
  · rintro (⟨t1, h1, t2, h2, rfl⟩ | ⟨e, t1, h1, t2, h2, rfl⟩ | ⟨h1, h2, h3⟩)
    · exact .good h1 h2
    · exact .caught h1 h2
    · exact .leave h1 h2 h3

theorem finally_iff (A F : Beh) (t : List Nat) (o : Out) : FinallyRun A F t o ↔ (∃ t1, (A t1 o ∧ o ≠ .cut) ∧ ∃ t2, F t2 .normal ∧ t = t1 ++ t2) ∨
    (∃ o' t1, (A t1 o' ∧ o' ≠ .cut) ∧ ∃ t2, (F t2 o ∧ o ≠ .normal) ∧ t = t1 ++ t2) ∨ (A t .cut ∧ o = .cut) := by
  constructor
  · rintro (⟨h1, h2, h3⟩ | ⟨h1, h2, h3, h4⟩ | h1)
    · exact .inl ⟨_, ⟨h1, h2⟩, _, h3, rfl⟩
    · exact .inr (.inl ⟨_, _, ⟨h1, h2⟩, _, ⟨h3, h4⟩, rfl⟩)
    · exact .inr (.inr ⟨h1, rfl⟩)
  · rintro (⟨t1, ⟨h1, h2⟩, t2, h3, rfl⟩ | ⟨o', t1, ⟨h1, h2⟩, t2, ⟨h3, h4⟩, rfl⟩ | ⟨h1, rfl⟩)
    · exact .both h1 h2 h3
    · exact .leave h1 h2 h3 h4
    · exact .cut h1

/-- A loop that has one iteration at most. -/
theorem loop_iff (H D B E : Beh) (hB : ∀ t, ¬ B t .normal ∧ ¬ B t .cont) (t : List Nat) (o : Out) : LoopRun H D B E t o ↔ Seq D E t o ∨
    (H t o ∧ o ≠ .normal) ∨ (∃ t1, H t1 .normal ∧ ∃ t2, B t2 .brk ∧ o = .normal ∧ t = t1 ++ t2) ∨
    (∃ t1, H t1 .normal ∧ ∃ t2, (B t2 o ∧ o ≠ .normal ∧ o ≠ .cont ∧ o ≠ .brk) ∧ t = t1 ++ t2) := by
  constructor
  · rintro (h | ⟨h1, h2⟩ | ⟨h1, h2, h3, h4⟩ | ⟨h1, h2⟩ | ⟨h1, h2, h3, h4, h5⟩)
    · exact .inl h
    · exact .inr (.inl ⟨h1, h2⟩)
    · rcases h3 with rfl | rfl
      · exact ((hB _).1 h2).elim
      · exact ((hB _).2 h2).elim
    · exact .inr (.inr (.inl ⟨_, h1, _, h2, rfl, rfl⟩))
    · exact .inr (.inr (.inr ⟨_, h1, _, ⟨h2, h3, h4, h5⟩, rfl⟩))
  · rintro (h | ⟨h1, h2⟩ | ⟨t1, h1, t2, h2, rfl, rfl⟩ | ⟨t1, h1, t2, ⟨h2, h3, h4, h5⟩, rfl⟩)
    · exact .done h
    · exact .head h1 h2
    · exact .brk h1 h2
    · exact .leave h1 h2 h3 h4 h5

/-- `E` may be raised at some of the locations; clauses catch what they name. -/
def at_ (raising : List Nat) : World := ⟨fun l e => l ∈ raising ∧ e = "E".toList, fun names e => e ∈ names, true⟩

/-- The executions, apart from the beginnings of executions that do not end. -/
def Does (raising : List Nat) (b : Body) (runs : List (List Nat × Out)) : Prop := ∀ t o, o ≠ .cut → (RunBody (at_ raising) b t o ↔ (t, o) ∈ runs)

def stmts : List Stmt → Body
  | [] => .nil
  | s :: ss => .cons s (stmts ss)

/-- One branch is executed; nothing is after a jump. -/
example : Does [] (stmts [.cond 0 (stmts [.simple 1]) (stmts [.simple 2]), .simple 3]) [([0, 1, 3], .normal), ([0, 2, 3], .normal)] ∧
    Does [1] (stmts [.cond 0 (stmts [.simple 1]) .nil, .jump .ret 3, .simple 4]) [([0, 1, 3], .ret), ([0, 3], .ret), ([0, 1], .raise "E".toList)] := by
  constructor <;> intro t o ho <;>
    simp [at_, stmts, RunBody, Run, seq_iff, leaf_iff, skip_iff, alt_iff, jump_iff, ho] <;> cases o <;> simp at ho ⊢ <;> grind

/-- `else` is executed when a loop ends by itself, and not after `break`; for a `for`, asking for a further element stands for its end. -/
example : Does [] (stmts [.loop 0 (stmts [.jump .brk 1]) (stmts [.simple 2]), .simple 3]) [([0, 1, 3], .normal), ([0, 2, 3], .normal)] ∧
    Does [] (stmts [.each 0 1 (stmts [.jump .ret 2]) (stmts [.simple 3]), .simple 4]) [([0, 1, 2], .ret), ([0, 1, 3, 4], .normal)] ∧
    Does [0, 1] (stmts [.each 0 1 (stmts [.jump .brk 2]) .nil]) [([0, 1, 2], .normal), ([0, 1], .normal), ([0], .raise "E".toList), ([0, 1], .raise "E".toList)] := by
  refine ⟨?_, ?_, ?_⟩ <;> intro t o ho <;> simp only [at_, stmts, RunBody, Run] <;> rw [seq_iff]
  · rw [loop_iff _ _ _ _ (by simp [seq_iff, leaf_iff, skip_iff, jump_iff])]
    simp [seq_iff, leaf_iff, skip_iff, jump_iff, loop_iff, ho]
    cases o <;> simp at ho ⊢ <;> grind
  · simp [seq_iff, leaf_iff, skip_iff, jump_iff, loop_iff, ho]
    cases o <;> simp at ho ⊢ <;> grind
  · simp [seq_iff, leaf_iff, skip_iff, jump_iff, loop_iff, ho]
    cases o <;> simp at ho ⊢ <;> grind

/-- The first clause that catches the exception is executed, with the name in front of it; `else` if there is none. What clauses and `else` raise is not
caught. -/
example : Does [0] (stmts [.try_ (.simple 0) (stmts [.simple 1]) (.cons ["F".toList] none (stmts [.simple 2]) (.cons ["E".toList] (some 3) (stmts [.simple 4])
      (.cons [] none (stmts [.simple 5]) .nil))) (stmts [.simple 6]) .nil, .simple 7]) [([0, 1, 6, 7], .normal), ([0, 3, 4, 7], .normal)] ∧
    Does [0] (stmts [.try_ (.simple 0) .nil (.cons ["F".toList] none (stmts [.simple 1]) .nil) .nil .nil, .simple 2])
      [([0, 2], .normal), ([0], .raise "E".toList)] ∧
    Does [0, 1, 2] (stmts [.try_ (.simple 0) .nil (.cons [] none (stmts [.simple 1]) .nil) (stmts [.simple 2]) .nil])
      [([0, 2], .normal), ([0, 2], .raise "E".toList), ([0, 1], .normal), ([0, 1], .raise "E".toList)] := by
  refine ⟨?_, ?_, ?_⟩ <;> intro t o ho <;>
    simp [at_, stmts, RunBody, Run, RunHandlers, Leaves, seq_iff, leaf_iff, skip_iff, try_iff, finally_iff, ho] <;> cases o <;> simp at ho ⊢ <;> grind

/-- `finally` is executed in any case, and what it ends with counts, unless it ends normally. -/
example : Does [0] (stmts [.try_ (.simple 0) .nil .nil .nil (stmts [.simple 1]), .simple 2]) [([0, 1, 2], .normal), ([0, 1], .raise "E".toList)] ∧
    Does [] (stmts [.try_ (.jump .ret 0) .nil .nil .nil (stmts [.simple 1]), .simple 2]) [([0, 1], .ret)] ∧
    Does [0] (stmts [.try_ (.simple 0) .nil .nil .nil (stmts [.jump .ret 1]), .simple 2]) [([0, 1], .ret)] := by
  refine ⟨?_, ?_, ?_⟩ <;> intro t o ho <;>
    simp [at_, stmts, RunBody, Run, RunHandlers, seq_iff, leaf_iff, skip_iff, jump_iff, try_iff, finally_iff, ho] <;> cases o <;> simp at ho ⊢ <;>
    first | grind | exact ⟨fun h => by grind, fun h => ⟨.normal, [0], ⟨by simp, by simp⟩, h⟩⟩

/-- `with a as b, c:` -/
example : Does [1] (stmts [.enter 0 [1, 2] (stmts [.simple 3])]) [([0, 1, 2, 3], .normal), ([0, 1], .raise "E".toList)] := by
  intro t o ho
  simp [at_, stmts, RunBody, Run, Leaves, seq_iff, leaf_iff, skip_iff, ho]
  cases o <;> simp at ho ⊢ <;> grind

end Flow

/-! ### `Model/CommonBranches.lean` -/

namespace Py.Branches

/-- Conditions and statements write their numbers; condition 0 is false and condition 9 raises, others are true. Statement 8 is `break`, statement 9
raises. -/
def writing : Lang (List Nat) where
  test n s := (if n = 9 then .error .valueError else .ok (n != 0), s ++ [n])
  simple _ n s o s' := s' = s ++ [n] ∧ o = if n = 8 then .brk else if n = 9 then .raise .valueError else .normal

theorem run_iff (t : Test) (b e : Block) (s s' : List Nat) (o : Out) : Run writing (.if_ t b e) s o s' ↔
    match writing.eval t s with
    | (.ok true, s1) => RunB writing b s1 o s'
    | (.ok false, s1) => RunB writing e s1 o s'
    | (.error x, s1) => o = .raise x ∧ s' = s1 := by
  constructor
  · rintro (⟨h1, h2⟩ | ⟨h1, h2⟩ | h1) <;> simp only [h1]
    · exact h2
    · exact h2
    · exact ⟨trivial, trivial⟩
  · intro h
    rcases he : writing.eval t s with ⟨x | _ | _, s1⟩ <;> simp only [he] at h
    · rw [h.1, h.2]
      exact .raise he
    · exact .else_ he h
    · exact .then_ he h

theorem simple_iff (r : Bool) (n : Nat) (s s' : List Nat) (o : Out) : Run writing (.simple r n) s o s' ↔ writing.simple r n s o s' :=
  ⟨fun (.simple h) => h, .simple⟩

theorem writes_iff (r : Bool) (n : Nat) (s s' : List Nat) (o : Out) : writing.simple r n s o s' ↔
    s' = s ++ [n] ∧ o = if n = 8 then .brk else if n = 9 then .raise .valueError else .normal := Iff.rfl

theorem eval_atom (n : Nat) (s : List Nat) : writing.eval (.atom n) s = (if n = 9 then .error .valueError else .ok (n != 0), s ++ [n]) := rfl

theorem nil_iff (s s' : List Nat) (o : Out) : RunB writing [] s o s' ↔ o = .normal ∧ s' = s := by
  constructor
  · rintro ⟨⟩
    exact ⟨rfl, rfl⟩
  · rintro ⟨rfl, rfl⟩
    exact .nil

theorem cons_iff (st : Stmt) (b : Block) (s s' : List Nat) (o : Out) : RunB writing (st :: b) s o s' ↔
    (∃ s1, Run writing st s .normal s1 ∧ RunB writing b s1 o s') ∨ (Run writing st s o s' ∧ o ≠ .normal) := by
  constructor
  · rintro (_ | ⟨h1, h2⟩ | ⟨h1, h2⟩)
    · exact .inl ⟨_, h1, h2⟩
    · exact .inr ⟨h1, h2⟩
  · rintro (⟨s1, h1, h2⟩ | ⟨h1, h2⟩)
    · exact .next h1 h2
    · exact .leave h1 h2

def does (b : Block) (t : List Nat) (o : Out) : Prop := ∀ o' s', RunB writing b [] o' s' ↔ o' = o ∧ s' = t

/-- One branch of an `if` is executed, after its condition. Nothing is after an exception or a jump. -/
example : does [.if_ (.atom 1) [.simple false 2] [.simple false 3], .simple false 4] [1, 2, 4] .normal ∧
    does [.if_ (.atom 0) [.simple false 2] [.simple false 3], .simple false 4] [0, 3, 4] .normal ∧
    does [.if_ (.atom 9) [.simple false 2] [.simple false 3], .simple false 4] [9] (.raise .valueError) ∧
    does [.simple false 2, .simple false 8, .simple false 4] [2, 8] .brk ∧ does [.if_ (.atom 0) [.simple false 2] []] [0] .normal := by
  refine ⟨?_, ?_, ?_, ?_, ?_⟩ <;> intro o s <;> simp [cons_iff, nil_iff, run_iff, simple_iff, writes_iff, eval_atom] <;> grind

/-- `and`, `or` and `not` -/
example : writing.eval (.and_ (.atom 1) (.atom 0)) [] = (.ok false, [1, 0]) ∧ writing.eval (.and_ (.atom 0) (.atom 1)) [] = (.ok false, [0]) ∧
    writing.eval (.or_ (.atom 1) (.atom 0)) [] = (.ok true, [1]) ∧ writing.eval (.or_ (.atom 0) (.atom 2)) [] = (.ok true, [0, 2]) ∧
    writing.eval (.not_ (.atom 0)) [] = (.ok true, [0]) ∧ writing.eval (.not_ (.atom 1)) [] = (.ok false, [1]) ∧
    writing.eval (.or_ (.atom 9) (.atom 2)) [] = (.error .valueError, [9]) ∧ writing.eval (.not_ (.atom 9)) [] = (.error .valueError, [9]) := by
  simp [Lang.eval, writing]

end Py.Branches

/-! ### `Model/Loops.lean`: for all programs -/

namespace Py.Loops

variable {W : Type} (L : Lang W)

/-- 8.1: `if` -/
theorem if_law (t : Expr) (b e : Block) (s s' : St W) (o : Out) : Run L (.if_ t b e) s o s' ↔
    match L.truth s t with
    | .ok true => RunB L b s o s'
    | .ok false => RunB L e s o s'
    | .error x => o = .raise x ∧ s' = s := by
  constructor
  · rintro (⟨h1, h2⟩ | ⟨h1, h2⟩ | h1) <;> simp only [h1]
    · exact h2
    · exact h2
    · exact ⟨trivial, trivial⟩
  · intro h
    cases ht : L.truth s t with
    | error x =>
      simp only [ht] at h
      rw [h.1, h.2]
      exact .raise ht
    | ok v =>
      cases v <;> simp only [ht] at h
      · exact .else_ ht h
      · exact .then_ ht h

/-- 7.9, 7.10: `break` and `continue` -/
theorem jump_law (s s' : St W) (o : Out) : (Run L .brk s o s' ↔ o = .brk ∧ s' = s) ∧ (Run L .cont s o s' ↔ o = .cont ∧ s' = s) := by
  refine ⟨⟨?_, ?_⟩, ⟨?_, ?_⟩⟩
  · rintro ⟨⟩; exact ⟨rfl, rfl⟩
  · rintro ⟨rfl, rfl⟩; exact .brk
  · rintro ⟨⟩; exact ⟨rfl, rfl⟩
  · rintro ⟨rfl, rfl⟩; exact .cont

/-- Statements are executed in turn, up to one that does not end normally. -/
theorem block_law (st : Stmt) (b : Block) (s s' : St W) (o : Out) : (RunB L .nil s o s' ↔ o = .normal ∧ s' = s) ∧
    (RunB L (.cons st b) s o s' ↔ (∃ s1, Run L st s .normal s1 ∧ RunB L b s1 o s') ∨ (Run L st s o s' ∧ o ≠ .normal)) := by
  refine ⟨⟨?_, ?_⟩, ⟨?_, ?_⟩⟩
  · rintro ⟨⟩; exact ⟨rfl, rfl⟩
  · rintro ⟨rfl, rfl⟩; exact .nil
  · rintro (_ | ⟨h1, h2⟩ | ⟨h1, h2⟩)
    · exact .inl ⟨_, h1, h2⟩
    · exact .inr ⟨h1, h2⟩
  · rintro (⟨s1, h1, h2⟩ | ⟨h1, h2⟩)
    · exact .next h1 h2
    · exact .leave h1 h2

/-- What a loop does after an iteration that ends with `o`: `again` after its end and after `continue`, nothing after `break`, and it ends with others. -/
def afterIteration (again : Out → St W → Prop) (o : Out) (s1 : St W) (o' : Out) (s' : St W) : Prop :=
  match o with
  | .normal => again o' s'
  | .cont => again o' s'
  | .brk => o' = .normal ∧ s' = s1
  | .ret v => o' = .ret v ∧ s' = s1
  | .raise x => o' = .raise x ∧ s' = s1

/-- 8.2: `while` -/
theorem while_law (f : While) (s s' : St W) (o' : Out) : f.Run L s o' s' ↔
    match L.truth s f.test with
    | .ok true => ∃ o s1, RunB L f.body s o s1 ∧ afterIteration (f.Run L s1) o s1 o' s'
    | .ok false => RunB L f.orelse s o' s'
    | .error x => o' = .raise x ∧ s' = s := by
  constructor
  · rintro (⟨h1, h2⟩ | h1 | ⟨h1, h2, h3, h4⟩ | ⟨h1, h2⟩ | ⟨h1, h2, h3, h4, h5⟩) <;> simp only [h1]
    · exact h2
    · exact ⟨trivial, trivial⟩
    · rcases h3 with rfl | rfl
      · exact ⟨_, _, h2, h4⟩
      · exact ⟨_, _, h2, h4⟩
    · exact ⟨_, _, h2, rfl, rfl⟩
    · refine ⟨_, _, h2, ?_⟩
      cases o' <;> simp_all [afterIteration]
  · intro h
    cases ht : L.truth s f.test with
    | error x =>
      simp only [ht] at h
      rw [h.1, h.2]
      exact .raise ht
    | ok v =>
      cases v <;> simp only [ht] at h
      · exact .done ht h
      · obtain ⟨o, s1, h1, h2⟩ := h
        cases o with
        | normal => exact .next ht h1 (.inl rfl) h2
        | cont => exact .next ht h1 (.inr rfl) h2
        | brk => rw [h2.1, h2.2]; exact .brk ht h1
        | ret v => rw [h2.1, h2.2]; exact .leave ht h1 (by simp) (by simp) (by simp)
        | raise x => rw [h2.1, h2.2]; exact .leave ht h1 (by simp) (by simp) (by simp)

/-- 8.3: `for`, with the elements that are left -/
theorem for_law (x : Str) (body orelse : Block) (v : Int) (vs : List Int) (s s' : St W) (o' : Out) :
    (Each L x body orelse [] s o' s' ↔ RunB L orelse s o' s') ∧
    (Each L x body orelse (v :: vs) s o' s' ↔
      ∃ o s1, RunB L body (s.set x (.int v)) o s1 ∧ afterIteration (Each L x body orelse vs s1) o s1 o' s') := by
  refine ⟨⟨fun (.done h) => h, .done⟩, ⟨?_, ?_⟩⟩
  · rintro (_ | ⟨h2, h3, h4⟩ | h2 | ⟨h2, h3, h4, h5⟩)
    · rcases h3 with rfl | rfl
      · exact ⟨_, _, h2, h4⟩
      · exact ⟨_, _, h2, h4⟩
    · exact ⟨_, _, h2, rfl, rfl⟩
    · refine ⟨_, _, h2, ?_⟩
      cases o' <;> simp_all [afterIteration]
  · rintro ⟨o, s1, h1, h2⟩
    cases o with
    | normal => exact .next h1 (.inl rfl) h2
    | cont => exact .next h1 (.inr rfl) h2
    | brk => rw [h2.1, h2.2]; exact .brk h1
    | ret v => rw [h2.1, h2.2]; exact .leave h1 (by simp) (by simp) (by simp)
    | raise x => rw [h2.1, h2.2]; exact .leave h1 (by simp) (by simp) (by simp)

/-- Nothing but the variable is assigned to. -/
example (s : St W) (x y : Str) (v : Val) : (s.set x v).world = s.world ∧ (s.set x v).env x = .ok v ∧ (y ≠ x → (s.set x v).env y = s.env y) := by
  refine ⟨rfl, by simp [St.set], fun h => by simp [St.set, h]⟩

end Py.Loops

/-! ### `Model/Expr.lean`, `Model/PyInt.lean`: section 6 -/

namespace Py

instance : DecidableEq (Except PyErr Val)
  | .ok a, .ok b => if h : a = b then isTrue (h ▸ rfl) else isFalse fun e => h (Except.ok.inj e)
  | .error a, .error b => if h : a = b then isTrue (h ▸ rfl) else isFalse fun e => h (Except.error.inj e)
  | .ok _, .error _ => isFalse nofun
  | .error _, .ok _ => isFalse nofun

/-- The value of an expression, where `x` is 7, and other variables are builtin functions. -/
def valueOf (e : Expr) : Except PyErr Val := eval (intSem noRest).toSem sevenEnv e

def num_ (n : Nat) : Expr := .const (.int n)
def neg_ (n : Nat) : Expr := .unary .neg (num_ n)
def fn (f : String) (args : List Expr) : Expr := .call (.name f.toList) args
def bad : Expr := .bin .floordiv (num_ 1) (num_ 0)
def wrong : Expr := .bin .add (.const .none) (num_ 1)

/-- Division rounds down, and the remainder has the sign of the divisor. -/
example : valueOf (.bin .floordiv (neg_ 7) (num_ 2)) = .ok (.int (-4)) ∧ valueOf (.bin .mod (neg_ 7) (num_ 2)) = .ok (.int 1) ∧
    valueOf (.bin .floordiv (num_ 7) (neg_ 2)) = .ok (.int (-4)) ∧ valueOf (.bin .mod (num_ 7) (neg_ 2)) = .ok (.int (-1)) ∧
    valueOf (.bin .sub (num_ 1) (num_ 3)) = .ok (.int (-2)) ∧ valueOf (.bin .pow (num_ 2) (num_ 3)) = .ok (.int 8) ∧
    valueOf (.bin .pow (num_ 0) (neg_ 1)) = .error .zeroDivisionError ∧ valueOf bad = .error .zeroDivisionError ∧
    valueOf (.bin .mod (num_ 1) (num_ 0)) = .error .zeroDivisionError ∧ valueOf (.unary .invert (num_ 3)) = .ok (.int (-4)) ∧
    valueOf (.bin .add (.const (.bool true)) (num_ 1)) = .ok (.int 2) ∧ valueOf (.bin .mul (.name "x".toList) (num_ 3)) = .ok (.int 21) := by
  decide +kernel

/-- An operand is the value of `and` and `or`, and only those that are needed are evaluated. -/
example : valueOf (.boolOp false [num_ 3, num_ 4]) = .ok (.int 4) ∧ valueOf (.boolOp false [num_ 3, num_ 0, bad]) = .ok (.int 0) ∧
    valueOf (.boolOp true [num_ 0, num_ 4, bad]) = .ok (.int 4) ∧ valueOf (.boolOp true [num_ 0, .const .none]) = .ok .none ∧
    valueOf (.boolOp true [num_ 0, bad]) = .error .zeroDivisionError ∧ valueOf (.unary .not (num_ 3)) = .ok (.bool false) ∧
    valueOf (.unary .not (.const (.str []))) = .ok (.bool true) ∧ valueOf (.ifExp (num_ 1) (num_ 2) bad) = .ok (.int 2) ∧
    valueOf (.ifExp (num_ 0) bad (num_ 3)) = .ok (.int 3) ∧ valueOf (.ifExp bad (num_ 2) (num_ 3)) = .error .zeroDivisionError := by
  decide +kernel

/-- Chains of comparisons end with the first that is false; each operand is compared with its neighbours. -/
example : valueOf (.compare (num_ 1) [(.lt, num_ 2), (.lt, num_ 3)]) = .ok (.bool true) ∧
    valueOf (.compare (num_ 1) [(.lt, num_ 3), (.lt, num_ 2)]) = .ok (.bool false) ∧
    valueOf (.compare (num_ 3) [(.lt, num_ 2), (.lt, bad)]) = .ok (.bool false) ∧
    valueOf (.compare (num_ 3) [(.gt, num_ 2), (.lt, bad)]) = .error .zeroDivisionError ∧
    valueOf (.compare (num_ 1) [(.lt, num_ 3), (.gt, num_ 2)]) = .ok (.bool true) ∧
    valueOf (.compare (num_ 2) [(.le, num_ 2)]) = .ok (.bool true) ∧ valueOf (.compare (num_ 2) [(.ne, num_ 2)]) = .ok (.bool false) ∧
    valueOf (.compare (num_ 2) [(.ge, num_ 3)]) = .ok (.bool false) ∧ valueOf (.compare (.const (.bool true)) [(.eq, num_ 1)]) = .ok (.bool true) := by
  decide +kernel

/-- Strings are compared character by character. -/
example : valueOf (.compare (.const (.str "ab".toList)) [(.lt, .const (.str "b".toList))]) = .ok (.bool true) ∧
    valueOf (.compare (.const (.str "ab".toList)) [(.lt, .const (.str "a".toList))]) = .ok (.bool false) ∧
    valueOf (.compare (.const (.str "a".toList)) [(.lt, .const (.str "ab".toList))]) = .ok (.bool true) ∧
    valueOf (.compare (.const (.str "Z".toList)) [(.lt, .const (.str "a".toList))]) = .ok (.bool true) ∧
    valueOf (.compare (.const (.str "a".toList)) [(.ge, .const (.str "a".toList))]) = .ok (.bool true) := by
  decide +kernel

/-- `ord`, `abs`, `range` and `in`; the function is evaluated before the arguments, and these from left to right. -/
example : valueOf (fn "ord" [.const (.str "A".toList)]) = .ok (.int 65) ∧ valueOf (fn "abs" [neg_ 3]) = .ok (.int 3) ∧
    valueOf (fn "range" [num_ 3]) = .ok (.range 0 3 1) ∧ valueOf (fn "range" [num_ 1, num_ 3]) = .ok (.range 1 3 1) ∧
    valueOf (fn "range" [num_ 1, num_ 3, num_ 0]) = .error .valueError ∧
    valueOf (.compare (num_ 5) [(.isIn, fn "range" [num_ 1, num_ 7, num_ 2])]) = .ok (.bool true) ∧
    valueOf (.compare (num_ 7) [(.isIn, fn "range" [num_ 1, num_ 7, num_ 2])]) = .ok (.bool false) ∧
    valueOf (.compare (num_ 4) [(.notIn, fn "range" [num_ 1, num_ 7, num_ 2])]) = .ok (.bool true) ∧
    valueOf (.call bad [wrong]) = .error .zeroDivisionError ∧ valueOf (fn "abs" [wrong, bad]) = .error .typeError ∧
    valueOf (.bin .add bad wrong) = .error .zeroDivisionError ∧ valueOf (.bin .add wrong bad) = .error .typeError ∧
    valueOf (.subscript bad wrong) = .error .zeroDivisionError ∧ valueOf (.subscript wrong bad) = .error .typeError := by
  decide +kernel

/-- `list(range(…))` -/
example : pyRange 1 7 2 = [1, 3, 5] ∧ pyRange 1 8 2 = [1, 3, 5, 7] ∧ pyRange 5 0 (-2) = [5, 3, 1] ∧ pyRange 3 3 1 = [] ∧ pyRange 3 0 1 = [] ∧
    pyRange 0 3 (-1) = [] := by
  decide +kernel

namespace Blocks

/-! ### `Model/Z3Block.lean`: sections 7 and 8.1 -/

/-- The value of a variable at the end, or that the block is left; `x` is 7 at the beginning. -/
def endsWith (x : String) (b : List Stmt) : Except PyErr (Option (Except PyErr Val)) :=
  match bxRun (b.foldr .cons .nil) sevenEnv with
  | .error e => .error e
  | .ok .stop => .ok none
  | .ok (.go env) => .ok (some (env x.toList))

def set_ (x : String) (n : Nat) : Stmt := .assign (.name x.toList) (num_ n)

def block (ss : List Stmt) : Block := ss.foldr .cons .nil

/-- What is found in the end. -/
def found (x : String) (b : List Stmt) : Option Int :=
  match endsWith x b with
  | .ok (some (.ok (.int i))) => some i
  | _ => none

/-- Whether the block is left by a jump (0) or an exception (1). -/
def left_ (b : List Stmt) : Option Nat :=
  match endsWith "x" b with
  | .ok none => some 0
  | .error _ => some 1
  | _ => none

example : found "x" [set_ "x" 3] = some 3 ∧ found "x" [set_ "y" 3] = some 7 ∧ found "x" [.aug (.name "x".toList) .sub (num_ 3)] = some 4 ∧
    found "x" [.assigns [.name "x".toList, .name "y".toList] (.other "Tuple".toList [num_ 1, num_ 2])] = some 1 ∧
    found "y" [set_ "y" 3, .assigns [.name "x".toList, .name "y".toList] (.other "Tuple".toList [.name "y".toList, .name "x".toList])] = some 7 ∧
    found "x" [.if_ (.name "x".toList) (block [set_ "x" 1]) (.else_ (block [set_ "x" 2])), .aug (.name "x".toList) .add (num_ 3)] = some 4 ∧
    found "x" [.if_ (num_ 0) (block [set_ "x" 1]) (.else_ (block [set_ "x" 2]))] = some 2 ∧
    found "x" [.if_ (num_ 0) (block [set_ "x" 1]) (.elif_ (num_ 1) (block [set_ "x" 3]) (.else_ (block [set_ "x" 2])))] = some 3 ∧
    found "x" [.if_ (num_ 0) (block [set_ "x" 1]) (.elif_ (num_ 0) (block [set_ "x" 3]) .none)] = some 7 ∧
    found "x" [.pass, .expr (num_ 3), .assert_ (num_ 1)] = some 7 := by
  decide +kernel

example : left_ [.end_, set_ "x" 1] = some 0 ∧ left_ [.assert_ (num_ 0)] = some 1 ∧ left_ [.expr bad] = some 1 ∧
    left_ [.if_ (num_ 1) (block [.end_]) .none, set_ "x" 1] = some 0 ∧ left_ [.if_ bad (block []) .none] = some 1 ∧
    left_ [.assigns [.name "x".toList] (.other "Tuple".toList [num_ 1, num_ 2])] = some 1 ∧ left_ [set_ "x" 1] = none := by
  decide +kernel

end Blocks

end Py

/-! ### `Props/Purity.lean`: sections 6.3 to 6.12 and 6.16 -/

namespace Purity

/-- Operations write down what they are given. Numbers are false if they are less than 5; `raise` raises. -/
def writing : World (List (Str × List Nat)) Str Nat where
  lit t := t.length
  read x s := if x = "unbound".toList then .error x else .ok (s.length)
  unary op v s := (.ok v, s ++ [(op, [v])])
  bin op v w s := (.ok v, s ++ [(op, [v, w])])
  compare op v w s := (.ok (v + w), s ++ [(op, [v, w])])
  truth v s := (.ok (decide (5 ≤ v)), s ++ [("bool".toList, [v])])
  getattr v a s := (.ok v, s ++ [(a, [v])])
  getitem v w s := (.ok v, s ++ [("[]".toList, [v, w])])
  build k vs s := (.ok (if k = .list then 1 else 2), s ++ [("display".toList, vs)])
  call v vs s := (if v = 5 then .error "raised".toList else .ok v, s ++ [("call".toList, v :: vs)])
  callWith _ _ _ s := (.ok 7, s ++ [("with".toList, [])])
  rest _ s := (.ok 8, s ++ [("rest".toList, [])])

/-- a call that gives the length of the text and writes it down -/
def said (f : String) : Ex := .call (.const f.toList) [] []

/-- An exception or a value, and what was written. -/
def noted (e : Ex) : (Str ⊕ Nat) × List (Str × List Nat) :=
  match eval writing e [] with
  | (.error x, s) => (.inl x, s)
  | (.ok v, s) => (.inr v, s)

def entry (op : String) (vs : List Nat) : Str × List Nat := (op.toList, vs)

/-- Operands are evaluated from left to right, before the operation; after an exception nothing is evaluated. -/
example : noted (.bin "+".toList (said "a") (said "bb")) = (.inr 1, [entry "call" [1], entry "call" [2], entry "+" [1, 2]]) ∧
    noted (.unary "-".toList (said "a")) = (.inr 1, [entry "call" [1], entry "-" [1]]) ∧
    noted (.attribute (said "bb") "x".toList) = (.inr 2, [entry "call" [2], entry "x" [2]]) ∧
    noted (.subscript true (said "a") (said "bb")) = (.inr 1, [entry "call" [1], entry "call" [2], entry "[]" [1, 2]]) ∧
    noted (.display .list [said "a", said "bb"]) = (.inr 1, [entry "call" [1], entry "call" [2], entry "display" [1, 2]]) ∧
    noted (.call (said "a") [said "bb", said "ccc"] []) =
      (.inr 1, [entry "call" [1], entry "call" [2], entry "call" [3], entry "call" [1, 2, 3]]) ∧
    noted (.bin "+".toList (said "raise") (said "bb")) = (.inl "raised".toList, [entry "call" [5]]) ∧
    noted (.bin "+".toList (said "a") (said "raise")) = (.inl "raised".toList, [entry "call" [1], entry "call" [5]]) ∧
    noted (.bin "+".toList (said "a") (.name "unbound".toList)) = (.inl "unbound".toList, [entry "call" [1]]) ∧
    noted (.bin "+".toList (said "a") (.name "x".toList)) = (.inr 1, [entry "call" [1], entry "+" [1, 1]]) ∧
    noted (.display .list [said "raise", said "a"]) = (.inl "raised".toList, [entry "call" [5]]) := by
  and_intros <;> decide +kernel

/-- `and` and `or` stop at the first operand that is false or true and give it, not its truth value; the last operand is not tested. -/
example : noted (.boolOp false [.const "longer".toList, .const "a".toList, .const "bb".toList]) = (.inr 1, [entry "bool" [6], entry "bool" [1]]) ∧
    noted (.boolOp true [.const "a".toList, .const "longer".toList, .const "bb".toList]) = (.inr 6, [entry "bool" [1], entry "bool" [6]]) ∧
    noted (.boolOp true [.const "a".toList, .const "bb".toList]) = (.inr 2, [entry "bool" [1]]) ∧
    noted (.boolOp false [.const "longer".toList, said "raise"]) = (.inl "raised".toList, [entry "bool" [6], entry "call" [5]]) ∧
    noted (.boolOp false [.const "a".toList, said "raise"]) = (.inr 1, [entry "bool" [1]]) := by
  and_intros <;> decide +kernel

/-- In a chain of comparisons every operand is evaluated at most once, and none after the first comparison that is false. -/
example : noted (.compare (said "a") [("<".toList, said "bb")]) = (.inr 3, [entry "call" [1], entry "call" [2], entry "<" [1, 2]]) ∧
    noted (.compare (said "a") [("<".toList, said "bb"), (">".toList, said "ccc")]) =
      (.inr 3, [entry "call" [1], entry "call" [2], entry "<" [1, 2], entry "bool" [3]]) ∧
    noted (.compare (said "a") [("<".toList, said "longer"), (">".toList, said "ccc")]) =
      (.inr 9, [entry "call" [1], entry "call" [6], entry "<" [1, 6], entry "bool" [7], entry "call" [3], entry ">" [6, 3]]) := by
  and_intros <;> decide +kernel

end Purity

/-! ### `Props/ForEachRun.lean`: sections 6, 7 and 8.1 to 8.3 -/

namespace ForEach

/-- Operations write down what they are given. An iterator gives as many numbers as it is. -/
def writing : Sem Nat (List (List Nat)) where
  const n := n
  num n := n + 100
  items _ _ := some [50, 51]
  unbound _ := 404
  truth v h := (.ok (v != 0), h)
  sub x y h := (.ok (x + y), h ++ [[1, x, y]])
  attr _ x h := (.ok (x + 20), h ++ [[2, x]])
  call f y h := (if f = 9 then .error y else .ok y, h ++ [[y]])
  method _ x f y h := (.ok 0, h ++ [[3, x, f, y]])
  op n x y h := (.ok (x * 10 + y), h ++ [[4, n, x, y]])
  aug n x y h := (.ok (x * 10 + y), h ++ [[5, n, x, y]])
  setItem x i y h := (.ok (), h ++ [[6, x, i, y]])
  delItem x i h := (.ok (), h ++ [[7, x, i]])
  setAttr _ x y h := (.ok (), h ++ [[8, x, y]])
  iter x h := (.ok x, h ++ [[9, x]])
  next it h := if h.count [10] < it then (.ok (some (h.count [10])), h ++ [[10]]) else (.ok none, h ++ [[11]])

/-- a value that is written down -/
def say (k : Nat) : E := .call (.const 0) (.const k)

/-- an exception -/
def fails (k : Nat) : E := .call (.const 9) (.const k)

/-- How it ends, with its value; the value of `x`; what was written. -/
def outcome : Res Nat (List (List Nat)) → Option (Nat × Nat × Option Nat × List (List Nat))
  | none => none
  | some (.normal, env, h) => some (0, 0, env "x".toList, h)
  | some (.brk, env, h) => some (1, 0, env "x".toList, h)
  | some (.cont, env, h) => some (2, 0, env "x".toList, h)
  | some (.ret a, env, h) => some (3, a, env "x".toList, h)
  | some (.exc a, env, h) => some (4, a, env "x".toList, h)

def env3 : Env Nat := fun y => if y = "x".toList then some 3 else none

def does (s : S) : Option (Nat × Nat × Option Nat × List (List Nat)) := outcome (exec writing 5 s env3 [])

def x : Str := "x".toList

/-- The order of evaluation in simple statements: the value comes before the target, but in augmented assignment the target is read before. -/
example : does (.expr (.sub (say 1) (say 2))) = some (0, 0, some 3, [[1], [2], [1, 1, 2]]) ∧
    does (.assign x (.attr "m".toList (say 1))) = some (0, 0, some 21, [[1], [2, 1]]) ∧
    does (.expr (.method "m".toList (say 1) (say 2))) = some (0, 0, some 3, [[1], [2, 1], [2], [3, 1, 21, 2]]) ∧
    does (.assign x (.op 7 (say 1) (say 2))) = some (0, 0, some 12, [[1], [2], [4, 7, 1, 2]]) ∧
    does (.assignItem (say 1) (say 2) (say 3)) = some (0, 0, some 3, [[3], [1], [2], [6, 1, 2, 3]]) ∧
    does (.assignAttr "m".toList (say 1) (say 3)) = some (0, 0, some 3, [[3], [1], [8, 1, 3]]) ∧
    does (.augName 7 x (say 4)) = some (0, 0, some 34, [[4], [5, 7, 3, 4]]) ∧
    does (.augItem 7 (say 1) (say 2) (say 4)) = some (0, 0, some 3, [[1], [2], [1, 1, 2], [4], [5, 7, 3, 4], [6, 1, 2, 34]]) ∧
    does (.del (say 1) (say 2)) = some (0, 0, some 3, [[1], [2], [7, 1, 2]]) ∧
    does (.assign x (.name "y".toList)) = some (4, 404, some 3, []) ∧
    does (.augName 7 "y".toList (say 4)) = some (4, 404, some 3, []) ∧
    does (.assign x (fails 8)) = some (4, 8, some 3, [[8]]) ∧
    does (.ret (say 6)) = some (3, 6, some 3, [[6]]) := by
  and_intros <;> decide +kernel

/-- `and`, `or` and conditional expressions -/
example : does (.assign x (.both false (say 2) (say 4))) = some (0, 0, some 4, [[2], [4]]) ∧
    does (.assign x (.both false (say 0) (say 4))) = some (0, 0, some 0, [[0]]) ∧
    does (.assign x (.both true (say 2) (say 4))) = some (0, 0, some 2, [[2]]) ∧
    does (.assign x (.both true (say 0) (say 4))) = some (0, 0, some 4, [[0], [4]]) ∧
    does (.assign x (.ite (say 0) (say 1) (say 4))) = some (0, 0, some 4, [[0], [4]]) ∧
    does (.assign x (.ite (say 2) (say 1) (say 4))) = some (0, 0, some 1, [[2], [1]]) := by
  and_intros <;> decide +kernel

/-- Conditionals and sequences; nothing is done after a jump. -/
example : does (.if_ (say 1) (.expr (say 2)) (.expr (say 3))) = some (0, 0, some 3, [[1], [2]]) ∧
    does (.if_ (say 0) (.expr (say 2)) (.expr (say 3))) = some (0, 0, some 3, [[0], [3]]) ∧
    does (.seq .brk (.expr (say 2))) = some (1, 0, some 3, []) ∧ does (.seq .cont (.expr (say 2))) = some (2, 0, some 3, []) ∧
    does (.seq (.expr (fails 1)) (.expr (say 2))) = some (4, 1, some 3, [[1]]) ∧
    does (.seq (.assign x (say 1)) (.assign x (.op 0 (.name x) (.const 5)))) = some (0, 0, some 15, [[1], [4, 0, 1, 5]]) ∧
    does .skip = some (0, 0, some 3, []) := by
  and_intros <;> decide +kernel

/-- Loops: `break` ends the innermost loop, `continue` its round, `return` and exceptions all of them. A `for` loop takes its iterator once and leaves
the last value in its variable. -/
example : does (.while_ (.name x) (.seq (.assign x (.const 0)) (.expr (say 1)))) = some (0, 0, some 0, [[1]]) ∧
    does (.while_ (say 1) .brk) = some (0, 0, some 3, [[1]]) ∧
    does (.while_ (.name x) (.seq (.assign x (.const 0)) (.seq .cont (.expr (say 1))))) = some (0, 0, some 0, []) ∧
    does (.while_ (say 1) (.ret (say 2))) = some (3, 2, some 3, [[1], [2]]) ∧
    does (.while_ (say 1) (.expr (fails 2))) = some (4, 2, some 3, [[1], [2]]) ∧
    does (.while_ (say 1) .skip) = none ∧
    does (.for_ x (say 2) .skip) = some (0, 0, some 1, [[2], [9, 2], [10], [10], [11]]) ∧
    does (.for_ x (say 0) .skip) = some (0, 0, some 3, [[0], [9, 0], [11]]) ∧
    does (.for_ x (say 2) .brk) = some (0, 0, some 0, [[2], [9, 2], [10]]) ∧
    does (.for_ x (say 2) (.seq .cont (.expr (say 8)))) = some (0, 0, some 1, [[2], [9, 2], [10], [10], [11]]) ∧
    does (.while_ (.name x) (.seq (.while_ (say 1) .brk) (.assign x (.const 0)))) = some (0, 0, some 0, [[1]]) := by
  and_intros <;> decide +kernel

/-- Loops over indices, over elements and over both -/
example : outcome (runRange writing 5 x (.expr (.call (.const 0) (.name x))) 2 env3 []) = some (0, 0, some 101, [[100], [101]]) ∧
    outcome (runRange writing 5 x .brk 2 env3 []) = some (0, 0, some 100, []) ∧
    outcome (runForeach writing 5 x 0 (.expr (.call (.const 0) (.name x))) 5 env3 []) = some (0, 0, some 51, [[50], [51]]) ∧
    outcome (runForeach writing 5 x 0 (.ret (.name x)) 5 env3 []) = some (3, 50, some 50, []) ∧
    outcome (runEnumerate writing 5 "i".toList x 0 (.expr (.op 0 (.name "i".toList) (.name x))) 5 env3 []) =
      some (0, 0, some 51, [[4, 0, 100, 50], [4, 0, 101, 51]]) := by
  and_intros <;> decide +kernel

end ForEach

end Verif
