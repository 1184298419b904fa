import Verif.Model.Reaching

/-!
Calls of functions that nothing calls: `make_up_calls`, `edulint/linting/analyses/data_dependency.py:354-411`.

A function is identified by its number; which functions are uncalled is given (see `Verif/Model/CallGraph.lean`), in any order, as they are a set. Just the links
to definitions are modelled: what is redefined by what (`edulint/linting/analyses/data_dependency.py:407-411`) is only drawn.
`scope_is_nested(uncalled_fun, uncalled_fun.root())` (`edulint/linting/analyses/data_dependency.py:382-384`) holds of all functions
(`edulint/linting/analyses/data_dependency.py:912-919`).
-/

namespace Verif.Cfg

/-- A function that nothing calls: itself, and the block of its arguments (`uncalled_fun.args.cfg_loc.block`). -/
structure Uncalled where
  function : Nat
  start : Nat

/-- What is known of scopes: of the node of the first location of a block (`block.locs[0].node.scope()`, which for a definition of a function or a class is the
function or the class), and of variables. -/
structure Scopes where
  block : Nat → Nat
  var : Nat → Nat

/-- The definitions of a variable at the end of the module, `edulint/linting/analyses/data_dependency.py:359-365`; `order` are the blocks of the module,
`computed` are their `computed_kills`. -/
def moduleKills (P : Prog) (indexToBlock order : List Nat) (computed : Nat → Nat → Nat) (v : Nat) : List Event :=
  (order.filter fun b => (P.succ b).any fun c => (P.locs c).length = 0).flatMap fun b => reachingKills P indexToBlock (computed b v) v

/-- The blocks that are taken for those of a function, `edulint/linting/analyses/data_dependency.py:373-377, 396`. -/
def blocksOf (S : Scopes) (indexToBlock : List Nat) (u : Uncalled) : List Nat :=
  (indexToBlock.drop (indexToBlock.idxOf u.start)).takeWhile fun b => S.block b = u.function

/-- Uses of a variable in a function, `edulint/linting/analyses/data_dependency.py:380-385` -/
def outerGens (P : Prog) (S : Scopes) (indexToBlock : List Nat) (u : Uncalled) (v : Nat) : List Event :=
  if S.var v ≠ u.function then (blocksOf S indexToBlock u).flatMap fun b => P.gens b v else []

/-- Values given to a variable in a function, `edulint/linting/analyses/data_dependency.py:387-394` -/
def outerKills (P : Prog) (S : Scopes) (indexToBlock : List Nat) (u : Uncalled) (v : Nat) : List Event :=
  if S.var v ≠ u.function then
    (blocksOf S indexToBlock u).flatMap fun b => match P.kill b v with
      | [] => []
      | first :: _ => first
  else []

/-- `make_up_calls` with the links found before, `edulint/linting/analyses/data_dependency.py:354-405`. If there are no uncalled functions, there are no uses to
link. -/
def makeUpCalls (P : Prog) (S : Scopes) (indexToBlock order : List Nat) (computed : Nat → Nat → Nat) (uncalled : List Uncalled)
    (definitions : List (Event × Event)) : List (Event × Event) :=
  ((List.range P.vars).flatMap fun v =>
    (moduleKills P indexToBlock order computed v ++ uncalled.flatMap fun u => outerKills P S indexToBlock u v).flatMap fun d =>
      uncalled.flatMap fun u => (outerGens P S indexToBlock u v).map fun e => (e, d)).foldl
    (fun links link => if link ∈ links then links else links ++ [link]) definitions

end Verif.Cfg
