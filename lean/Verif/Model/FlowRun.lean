import Verif.Model.Flow

/-!
What executing statements may do, as far as control flow goes: the sequences of locations that are executed, and how the
execution ends. This is the specification the graphs are compared with; it says nothing about graphs.

Tests and iterated expressions may have any value. What an exception is like is its name. Suppressing exceptions in
`with` is not modelled.
-/

namespace Verif.Flow

/-- How an execution ends. -/
inductive Out where
  /-- the next statement follows -/
  | normal
  | brk | cont | ret
  | raise (e : Str)
  /-- it is observed no further -/
  | cut
deriving DecidableEq

/-- What may be executed, and how it ends. -/
abbrev Beh := List Nat → Out → Prop

/-- Where exceptions are raised (besides by `raise`), which clauses catch them, and what is executed when a `for` has no
further element: if `asks`, its target, which then stands for asking for an element. -/
structure World where
  raises : Nat → Str → Prop
  catches : List Str → Str → Prop
  asks : Bool

/-- A location is executed. -/
inductive Leaf (W : World) (l : Nat) : Beh
  | ok : Leaf W l [l] .normal
  | raise {e} : W.raises l e → Leaf W l [l] (.raise e)
  | cut : Leaf W l [] .cut
  | after : Leaf W l [l] .cut

/-- One after the other. -/
inductive Seq (A B : Beh) : Beh
  | both {t1 t2 o} : A t1 .normal → B t2 o → Seq A B (t1 ++ t2) o
  | first {t o} : A t o → o ≠ .normal → Seq A B t o

/-- Nothing is executed. -/
inductive Skip : Beh
  | ok : Skip [] .normal
  | cut : Skip [] .cut

/-- Some locations in turn. -/
def Leaves (W : World) : List Nat → Beh
  | [] => Skip
  | l :: ls => Seq (Leaf W l) (Leaves W ls)

/-- One of two. -/
inductive Alt (A B : Beh) : Beh
  | left {t o} : A t o → Alt A B t o
  | right {t o} : B t o → Alt A B t o

/-- A jump is executed, and leaves what it is in. -/
inductive JumpRun : Jump → Beh
  | brk : JumpRun .brk [] .brk
  | cont : JumpRun .cont [] .cont
  | ret : JumpRun .ret [] .ret
  | raise {name e} : JumpRun (.raise name) [] (.raise e)
  | cut {j} : JumpRun j [] .cut

/-- A loop. `H` is what is executed before each iteration, `D` is what is executed when there is none, then `E`
follows. -/
inductive LoopRun (H D B E : Beh) : Beh
  | done {t o} : Seq D E t o → LoopRun H D B E t o
  | head {t o} : H t o → o ≠ .normal → LoopRun H D B E t o
  | next {t1 t2 t3 o o'} : H t1 .normal → B t2 o → o = .normal ∨ o = .cont → LoopRun H D B E t3 o' →
      LoopRun H D B E (t1 ++ (t2 ++ t3)) o'
  | brk {t1 t2} : H t1 .normal → B t2 .brk → LoopRun H D B E (t1 ++ t2) .normal
  | leave {t1 t2 o} : H t1 .normal → B t2 o → o ≠ .normal → o ≠ .cont → o ≠ .brk → LoopRun H D B E (t1 ++ t2) o

/-- `try` without `finally`: `H e` is what the clauses do about the exception `e`. -/
inductive TryRun (B : Beh) (H : Str → Beh) (E : Beh) : Beh
  | good {t1 t2 o} : B t1 .normal → E t2 o → TryRun B H E (t1 ++ t2) o
  | caught {t1 t2 e o} : B t1 (.raise e) → H e t2 o → TryRun B H E (t1 ++ t2) o
  | leave {t o} : B t o → o ≠ .normal → (∀ e, o ≠ .raise e) → TryRun B H E t o

/-- `finally`: it is executed however `A` ends. -/
inductive FinallyRun (A F : Beh) : Beh
  | both {t1 t2 o} : A t1 o → o ≠ .cut → F t2 .normal → FinallyRun A F (t1 ++ t2) o
  | leave {t1 t2 o o'} : A t1 o → o ≠ .cut → F t2 o' → o' ≠ .normal → FinallyRun A F (t1 ++ t2) o'
  | cut {t} : A t .cut → FinallyRun A F t .cut

mutual
/-- What executing a statement may do. -/
def Run (W : World) : Stmt → Beh
  | .simple l => Leaf W l
  | .jump j l => Seq (Leaf W l) (JumpRun j)
  | .cond t body orelse => Seq (Leaf W t) (Alt (RunBody W body) (RunBody W orelse))
  | .loop t body orelse => LoopRun (Leaf W t) (Leaf W t) (RunBody W body) (RunBody W orelse)
  | .each i t body orelse =>
    Seq (Leaf W i) (LoopRun (Leaf W t) (if W.asks then Leaf W t else Skip) (RunBody W body) (RunBody W orelse))
  | .enter i is body => Seq (Leaf W i) (Seq (Leaves W is) (RunBody W body))
  | .try_ first rest handlers orelse finally_ =>
    FinallyRun (TryRun (Seq (Run W first) (RunBody W rest)) (RunHandlers W handlers) (RunBody W orelse))
      (RunBody W finally_)

/-- What executing statements in turn may do. -/
def RunBody (W : World) : Body → Beh
  | .nil => Skip
  | .cons s rest => Seq (Run W s) (RunBody W rest)

/-- What the clauses of a `try` may do about an exception: the first one that catches it is executed. -/
def RunHandlers (W : World) : Handlers → Str → Beh
  | .nil => fun e t o => t = [] ∧ o = .raise e
  | .cons exceptions name body rest => fun e t o =>
    ((exceptions = [] ∨ W.catches exceptions e) ∧ Seq (Leaves W name.toList) (RunBody W body) t o) ∨
    (¬ (exceptions = [] ∨ W.catches exceptions e) ∧ RunHandlers W rest e t o)
end

/-! ### Kinds of programs -/

mutual
/-- There is no `try`. -/
def Stmt.noTry : Stmt → Bool
  | .simple _ => true
  | .jump _ _ => true
  | .cond _ b e => b.noTry && e.noTry
  | .loop _ b e => b.noTry && e.noTry
  | .each _ _ b e => b.noTry && e.noTry
  | .enter _ _ b => b.noTry
  | .try_ _ _ _ _ _ => false
/-- There is no `try`. -/
def Body.noTry : Body → Bool
  | .nil => true
  | .cons s rest => s.noTry && rest.noTry
end

mutual
/-- There is no `for`, besides in clauses of `try`. -/
def Stmt.noFor : Stmt → Bool
  | .simple _ => true
  | .jump _ _ => true
  | .cond _ b e => b.noFor && e.noFor
  | .loop _ b e => b.noFor && e.noFor
  | .each _ _ _ _ => false
  | .enter _ _ b => b.noFor
  | .try_ f r _ e _ => f.noFor && r.noFor && e.noFor
/-- There is no `for`, besides in clauses of `try`. -/
def Body.noFor : Body → Bool
  | .nil => true
  | .cons s rest => s.noFor && rest.noFor
end

mutual
/-- There is no `raise`, besides in clauses of `try`. -/
def Stmt.calm : Stmt → Bool
  | .simple _ => true
  | .jump (.raise _) _ => false
  | .jump _ _ => true
  | .cond _ b e => b.calm && e.calm
  | .loop _ b e => b.calm && e.calm
  | .each _ _ b e => b.calm && e.calm
  | .enter _ _ b => b.calm
  | .try_ f r _ e l => f.calm && r.calm && e.calm && l.calm
/-- There is no `raise`, besides in clauses of `try`. -/
def Body.calm : Body → Bool
  | .nil => true
  | .cons s rest => s.calm && rest.calm
end

/-- A `while` is the first thing executed. -/
def Stmt.startsLoop : Stmt → Bool
  | .loop _ _ _ => true
  | .try_ f _ _ _ _ => f.startsLoop
  | _ => false
/-- A `while` is the first thing executed. -/
def Body.startsLoop : Body → Bool
  | .nil => false
  | .cons s _ => s.startsLoop

mutual
/-- Each `try` (besides in clauses of `try`) has no `finally`, no `else` that begins with a loop, and no `raise` in its
body. -/
def Stmt.mild : Stmt → Bool
  | .simple _ => true
  | .jump _ _ => true
  | .cond _ b e => b.mild && e.mild
  | .loop _ b e => b.mild && e.mild
  | .each _ _ b e => b.mild && e.mild
  | .enter _ _ b => b.mild
  | .try_ f r _ e l => f.mild && r.mild && e.mild && f.calm && r.calm && !e.startsLoop && l.isNil
/-- Each `try` (besides in clauses of `try`) has no `finally`, no `else` that begins with a loop, and no `raise` in its
body. -/
def Body.mild : Body → Bool
  | .nil => true
  | .cons s rest => s.mild && rest.mild
end

/-! ### Locations -/

mutual
/-- The locations in a statement. -/
def Stmt.locations : Stmt → List Nat
  | .simple l => [l]
  | .jump _ l => [l]
  | .cond t b e => t :: (b.locations ++ e.locations)
  | .loop t b e => t :: (b.locations ++ e.locations)
  | .each i t b e => i :: t :: (b.locations ++ e.locations)
  | .enter i is b => i :: (is ++ b.locations)
  | .try_ f r hs e l => f.locations ++ (r.locations ++ (hs.locations ++ (e.locations ++ l.locations)))
/-- The locations in statements. -/
def Body.locations : Body → List Nat
  | .nil => []
  | .cons s rest => s.locations ++ rest.locations
/-- The locations in clauses of a `try`. -/
def Handlers.locations : Handlers → List Nat
  | .nil => []
  | .cons _ name b rest => name.toList ++ (b.locations ++ rest.locations)
end

mutual
/-- There is no `finally`. -/
def Stmt.noFinally : Stmt → Bool
  | .simple _ => true
  | .jump _ _ => true
  | .cond _ b e => b.noFinally && e.noFinally
  | .loop _ b e => b.noFinally && e.noFinally
  | .each _ _ b e => b.noFinally && e.noFinally
  | .enter _ _ b => b.noFinally
  | .try_ f r hs e l => f.noFinally && r.noFinally && hs.noFinally && e.noFinally && l.isNil
/-- There is no `finally`. -/
def Body.noFinally : Body → Bool
  | .nil => true
  | .cons s rest => s.noFinally && rest.noFinally
/-- There is no `finally`. -/
def Handlers.noFinally : Handlers → Bool
  | .nil => true
  | .cons _ _ b rest => b.noFinally && rest.noFinally
end

mutual
/-- Each clause of a `try` has a body, as Python's grammar requires. -/
def Stmt.full : Stmt → Bool
  | .simple _ => true
  | .jump _ _ => true
  | .cond _ b e => b.full && e.full
  | .loop _ b e => b.full && e.full
  | .each _ _ b e => b.full && e.full
  | .enter _ _ b => b.full
  | .try_ f r hs e l => f.full && r.full && hs.full && e.full && l.full
/-- Each clause of a `try` has a body. -/
def Body.full : Body → Bool
  | .nil => true
  | .cons s rest => s.full && rest.full
/-- Each clause has a body. -/
def Handlers.full : Handlers → Bool
  | .nil => true
  | .cons _ _ b rest => !b.isNil && b.full && rest.full
end

mutual
/-- The statement and those in it. -/
def Stmt.parts : Stmt → List Stmt
  | .simple l => [.simple l]
  | .jump j l => [.jump j l]
  | .cond t b e => .cond t b e :: (b.parts ++ e.parts)
  | .loop t b e => .loop t b e :: (b.parts ++ e.parts)
  | .each i t b e => .each i t b e :: (b.parts ++ e.parts)
  | .enter i is b => .enter i is b :: b.parts
  | .try_ f r hs e l => .try_ f r hs e l :: (f.parts ++ (r.parts ++ (hs.parts ++ (e.parts ++ l.parts))))
/-- The statements and those in them. -/
def Body.parts : Body → List Stmt
  | .nil => []
  | .cons s rest => s.parts ++ rest.parts
/-- The statements in clauses of a `try`. -/
def Handlers.parts : Handlers → List Stmt
  | .nil => []
  | .cons _ _ b rest => b.parts ++ rest.parts
end

/-! ### Paths -/

/-- Each block leads to the next one. -/
def Graph.Linked (g : Graph) : List Nat → Prop
  | a :: b :: rest => (a, b) ∈ g.edges ∧ g.Linked (b :: rest)
  | _ => True

/-- The blocks are a path from the beginning of the graph. -/
def Graph.IsPath (g : Graph) (path : List Nat) : Prop := path.head? = some g.start ∧ g.Linked path

/-- The locations of blocks in turn. -/
def Graph.along (g : Graph) (path : List Nat) : List Nat := path.flatMap g.locs

end Verif.Flow
