import Verif.Model.MadeUp
import Verif.Model.Uses

/-!
All of what `collect_reaching_definitions` links in a file, with calls that are made up,
`edulint/linting/analyses/data_dependency.py:413-440`, and executions in which functions that nothing calls are called after the module.

Functions are numbered by their positions in the file.
-/

namespace Verif.Uses

open Verif.Cfg (Event Item)
open Verif.Flow (World RunBody Out)

/-- Scopes of nodes of locations (`node.scope()`) and of variables. -/
structure FileScopes where
  loc : Nat → Nat
  var : Nat → Nat

/-- The scope of the node of the first location of each block. Blocks without locations are not looked at. -/
def File.scopes (F : File) (S : FileScopes) : Cfg.Scopes where
  block n := match (F.graph (F.which n)).locs (F.block n) with
    | l :: _ => S.loc l
    | [] => F.functions.length
  var := S.var

/-- `edulint/linting/analyses/data_dependency.py:370-373`: a function and the block of its arguments. -/
def File.uncalled (F : File) (i : Nat) : Cfg.Uncalled := ⟨i, F.num i (F.graph i).start⟩

/-- The definitions of events after `collect_reaching_definitions` are these pairs; `uncalled` are the functions that nothing calls. -/
def File.AllDefinitions (F : File) (items : Nat → List Item) (vars : Nat) (S : FileScopes) (uncalled : List Nat) (definitions : List (Event × Event)) : Prop :=
  (F.body.isNil = true ∧ definitions = []) ∨
  (F.body.isNil = false ∧ ∃ phases ph n, Cfg.Phases (F.prog items vars) F.reachable 0 F.starts phases ∧ phases.getLast? = some ph ∧
    ((Cfg.Fix.init (F.prog items vars) F.reachable ph.base ph.order).run (F.prog items vars) n).queue = [] ∧
    definitions = Cfg.makeUpCalls (F.prog items vars) (F.scopes S) (phases.flatMap Cfg.Phase.order) ph.order
      ((Cfg.Fix.init (F.prog items vars) F.reachable ph.base ph.order).run (F.prog items vars) n).computed (uncalled.map F.uncalled)
      (Cfg.links (F.prog items vars) phases).1)

/-- What is executed if the module is, and then functions are called one after another. The last of these may be observed just for a while or end with an exception;
`true` tells that it has come to its end. -/
inductive Session (F : File) (W : World) (uncalled : List Nat) : List Nat → Bool → Prop
  | module {tr : List Nat} {o : Out} : RunBody W F.body tr o → Session F W uncalled tr (decide (o = .normal))
  | call {t tr : List Nat} {o : Out} {i args : Nat} {p : Flow.Body} : Session F W uncalled t true → i ∈ uncalled → F.functions[i]? = some (args, p) →
      RunBody W p tr o → Session F W uncalled (t ++ args :: tr) (decide (o = .normal ∨ o = .ret))

end Verif.Uses
