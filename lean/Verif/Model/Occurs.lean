import Verif.Model.FlowRun

/-! Where statements are in a program: what is meant by statements in a row, for C90 and C91. -/

namespace Verif.Inside

open Verif.Flow

/-- The statements of the one and then those of the other. -/
def append : Body → Body → Body
  | .nil, b => b
  | .cons s rest, b => .cons s (append rest b)

/-- The bodies of clauses of a `try`. -/
def clauses : Handlers → List Body
  | .nil => []
  | .cons _ _ b rest => b :: clauses rest

/-- The suites of a statement, besides that of a `with` and `finally`: the statements below a line of it that ends with a colon. -/
def suites : Stmt → List Body
  | .simple _ => []
  | .jump _ _ => []
  | .cond _ b e => [b, e]
  | .loop _ b e => [b, e]
  | .each _ _ b e => [b, e]
  | .enter _ _ _ => []
  | .try_ f r hs e _ => .cons f r :: e :: clauses hs

/-- None of the statements is a `with`; there may be some within them. -/
def noWith : Body → Bool
  | .nil => true
  | .cons (.enter _ _ _) _ => false
  | .cons _ rest => noWith rest

/-- `At b last p free`: `b` are statements in a row in `p`, or in a suite in it. `free` says whether they are the last ones of
their suite, where statements in a `with` count as those of the suite that the `with` is in. `last` says whether `p` are the last
ones. -/
inductive At (b : Body) : Bool → Body → Bool → Prop
  | here {last : Bool} (post : Body) : At b last (append b post) (last && post.isNil)
  | skip {last f : Bool} {s : Stmt} {rest : Body} : At b last rest f → At b last (.cons s rest) f
  | within {last f : Bool} {s : Stmt} {rest inner : Body} : inner ∈ suites s → inner.isNil = false → At b true inner f →
      At b last (.cons s rest) f
  | enter {last f : Bool} {i : Nat} {is : List Nat} {rest inner : Body} : At b (last && rest.isNil) inner f →
      At b last (.cons (.enter i is inner) rest) f

end Verif.Inside
