import Verif.Model.Repr
import Verif.Model.Extract
import Verif.Model.FlowCheck
import Verif.Model.MergeIfs
import Verif.Model.BoolOps
import Verif.Model.CommonBranches
import Verif.Model.BoolParts
import Verif.Model.Antiunify
import Verif.Model.ConstValue
import Verif.Model.CollectBlocks
import Verif.Model.Z3Block
import Verif.Model.Paths
import Verif.Model.UseFor

/-!
Small definitions that larger ones are built from, on examples of what the code does.
-/

namespace Verif

/-- Codes after each of the options of Flake8 are those that are enabled. -/
example : addEnabled "me".toList [] .flake8 "--extend-select=E1,W2".toList = [("E1".toList, "me".toList), ("W2".toList, "me".toList)] ∧
    addEnabled "me".toList [] .flake8 "--select=E1".toList = [("E1".toList, "me".toList)] ∧
    addEnabled "me".toList [] .pylint "--enable=a,b".toList = [("a".toList, "me".toList), ("b".toList, "me".toList)] ∧
    addEnabled "me".toList [] .pylint "--select=a".toList = [] ∧ addEnabled "me".toList [] .flake8 "--enable=a".toList = [] := by
  decide +kernel

/-- `isdecimal` -/
example : decimalValue? "120".toList = some 120 ∧ decimalValue? [] = none ∧ decimalValue? "1a".toList = none ∧ decimalValue? "-1".toList = none := by
  decide +kernel

/-- `os.path.join` -/
example : joinPath [] "a".toList = "a".toList ∧ joinPath "d".toList "a".toList = "d/a".toList ∧ joinPath "d/".toList "a".toList = "d/a".toList := by
  decide +kernel

/-- `os.path.splitext` -/
example : extension "d.x/a".toList = [] ∧ extension "d/a.py".toList = ".py".toList ∧ extension ".py".toList = [] ∧ extension "..py".toList = [] ∧
    extension "a.b.py".toList = ".py".toList ∧ extension "a.".toList = ".".toList ∧ extension "a..py".toList = ".py".toList := by
  decide +kernel

/-- A line of the output. -/
example : Problem.str { source := .pylint, enabledBy := some "me".toList, path := "a.py".toList, line := 3, column := 0, code := "C0104".toList, text := "no".toList } =
    "a.py:3:0: C0104 no [me]".toList ∧
    Problem.str { source := .pylint, enabledBy := none, path := "a.py".toList, line := 3, column := 0, code := "C0104".toList, text := "no".toList } =
    "a.py:3:0: C0104 no".toList := by
  decide +kernel

/-- The statements of all handlers count. -/
example : Extract.handled true true [.handler [] [.node []], .handler [] [.node [], .node []]] = 3 := by
  decide +kernel

/-- A block without statements that is merged into itself, into which an edge leads. -/
example : (match Flow.Work.linkOrMerge ⟨⟨3, fun _ => [], [(0, 1)], 0⟩, 1, [1]⟩ 1 1 with | .error .memoryError => true | _ => false) = true ∧
    (match Flow.Work.linkOrMerge ⟨⟨3, fun _ => [], [(1, 0)], 0⟩, 1, [1]⟩ 1 1 with | .error .memoryError => true | _ => false) = false ∧
    (match Flow.Work.multiple ⟨⟨3, fun _ => [], [(0, 1)], 0⟩, 1, [1]⟩ 1 [2, 1] with | .error .memoryError => true | _ => false) = true ∧
    (match Flow.Work.multiple ⟨⟨3, fun _ => [], [(1, 0)], 0⟩, 1, [1]⟩ 1 [2, 1] with | .error .memoryError => true | _ => false) = false := by
  decide +kernel

/-- A `return` in any of the branches. -/
example (t : Py.Expr) : Py.Blocks.Rest.hasEnd (fun _ => false) (.elif_ t .nil (.else_ (.cons .end_ .nil))) = true ∧
    Py.Blocks.Rest.hasEnd (fun _ => false) (.elif_ t (.cons .end_ .nil) .none) = true ∧
    Py.Blocks.Rest.hasEnd (fun _ => false) (.elif_ t .nil .none) = false := ⟨rfl, rfl, rfl⟩

/-- `str.startswith("abs(")` -/
example : Py.BoolOps.startsWith "abs".toList [.ident "abs".toList, .sym "("] = true ∧ Py.BoolOps.startsWith "abs".toList [.ident "max".toList, .sym "("] = false ∧
    Py.BoolOps.startsWith "abs".toList [.ident "abs".toList, .sym "+"] = false ∧ Py.BoolOps.startsWith "abs".toList [] = false := by
  decide +kernel

/-- The operands of comparisons and of `abs` are not taken for truth values, those of `not` and `and` are. -/
example (S : Py.FoldSem Py.Val) (x y : Py.Expr) (hx : x = .name "x".toList) (hy : y = .name "y".toList) :
    Py.BoolParts.takesNumber S (fun _ => false) (.compare x [(.lt, y)]) true = false ∧
    Py.BoolParts.takesNumber S (fun _ => false) (.call (.name "abs".toList) [x]) false = false ∧
    Py.BoolParts.takesNumber S (fun _ => false) (.boolOp false [.compare x [(.lt, y)], y]) false = true ∧
    Py.BoolParts.takesNumber S (fun _ => false) (.unary .not x) false = true := by
  subst hx hy
  refine ⟨rfl, ?_, rfl, rfl⟩
  simp [Py.BoolParts.takesNumber, Py.BoolParts.takesFirst]

/-- The deeper one of both branches counts. -/
example (t : Py.Branches.Test) : Py.Branches.nestedIn (.if_ t [.if_ t [.simple false 0] []] [.simple false 1]) = 2 ∧
    Py.Branches.nestedIn (.if_ t [.simple false 0] [.if_ t [] []]) = 2 ∧ Py.Branches.nestedIn (.if_ t [.simple false 0, .if_ t [] []] []) = 1 := by
  refine ⟨rfl, rfl, rfl⟩

/-- Names of variables. -/
example : Aunify.Ast.varName (.node "Name".toList [("name".toList, .const (.str "x".toList))]) = some (.const (.str "x".toList)) ∧
    Aunify.Ast.varName (.node "Attribute".toList [("name".toList, .const (.str "x".toList))]) = none ∧ Aunify.Ast.varName (.const .none) = none := by
  decide +kernel

/-- Nodes and constants are not instances of one another. -/
example (L : Aunify.Lang) : Aunify.Ast.isInstance L (.const .none) (.const (.int 1)) = true ∧ Aunify.Ast.isInstance L (.node "A".toList []) (.const .none) = false ∧
    Aunify.Ast.isNode (.node "A".toList []) = true ∧ Aunify.Ast.isNode (.const .none) = false := ⟨rfl, rfl, rfl, rfl⟩

/-- `in` and `not in` are missing from the table of operators, and so is `@`. -/
example {V : Type} (S : Py.FoldSem V) (a b : V) : Py.foldCmp S .isIn a b = .error .keyError ∧ Py.foldCmp S .notIn a b = .error .keyError ∧
    Py.foldCmp S .lt a b = S.cmp .lt a b ∧ Py.foldBin S .matmul a b = .error .keyError := ⟨rfl, rfl, rfl, rfl⟩

/-- The class of a node is its name: `with` and handlers have their own. -/
example (i : CollectBlocks.Info) : (CollectBlocks.toTree (.with_ i [])) = .node (.other "With".toList []) (i.heads ++ []) ∧
    CollectBlocks.handlerTrees [.mk i []] = [.node (.other "ExceptHandler".toList []) (i.heads ++ [])] := by
  constructor
  · rw [CollectBlocks.toTree.eq_def]; simp only [CollectBlocks.toTrees]
  · rw [CollectBlocks.handlerTrees.eq_def]; simp only [CollectBlocks.toTrees, CollectBlocks.handlerTrees]

/-- The expressions that the analysis of blocks admits. -/
example (op : Py.BinOp) (u : Py.UnOp) (b : Bool) (e : Py.Expr) (es : List Py.Expr) (cs : List (Py.CmpOp × Py.Expr)) (k : Py.Lit) (x : Str) :
    Py.Blocks.allowedExpr (.bin op e e) = true ∧ Py.Blocks.allowedExpr (.boolOp b es) = true ∧ Py.Blocks.allowedExpr (.call e es) = true ∧
    Py.Blocks.allowedExpr (.compare e cs) = true ∧ Py.Blocks.allowedExpr (.const k) = true ∧ Py.Blocks.allowedExpr (.name x) = true ∧
    Py.Blocks.allowedExpr (.unary u e) = true ∧ Py.Blocks.allowedExpr (.other "Tuple".toList es) = true ∧
    Py.Blocks.allowedExpr (.other "List".toList es) = false ∧ Py.Blocks.allowedExpr (.attr e x) = false ∧
    Py.Blocks.allowedExpr (.subscript e e) = false ∧ Py.Blocks.allowedExpr (.ifExp e e e) = false := by
  refine ⟨rfl, rfl, rfl, rfl, rfl, rfl, rfl, ?_, ?_, rfl, rfl, rfl⟩ <;> rw [Py.Blocks.allowedExpr] <;> decide +kernel

/-- `os.path.normpath` -/
example : normPath "../a".toList = "../a".toList ∧ normPath "/../a".toList = "/a".toList ∧ normPath "../../a".toList = "../../a".toList ∧
    normPath "a/../..".toList = "..".toList ∧ normPath "a/..".toList = ".".toList ∧ normPath [] = ".".toList ∧ normPath "a//./b/".toList = "a/b".toList ∧
    normPath "//a".toList = "//a".toList ∧ normPath "///a".toList = "/a".toList ∧ normPath "a/b/../../c".toList = "c".toList := by
  decide +kernel

/-- `os.path.relpath` -/
example : let fs : FsEnv := ⟨["h".toList, "me".toList], id⟩
    (relPath fs "/h/me/a.py".toList).toOption = some "a.py".toList ∧ (relPath fs "/h/you/a.py".toList).toOption = some "../you/a.py".toList ∧ (relPath fs "/h/me".toList).toOption = some ".".toList ∧
    (relPath fs "../a.py".toList).toOption = some "../a.py".toList ∧ (relPath fs "/x".toList).toOption = some "../../x".toList := by
  decide +kernel

/-- A loop at the end of a body has no next sibling, whatever the body is followed by. -/
example : let w : Flow.Stmt := .loop 1 .nil .nil
    UseFor.followed 1 (.cons (.cond 0 (.cons w .nil) .nil) (.cons (.simple 2) .nil)) = some false ∧
    UseFor.followed 1 (.cons (.cond 0 (.cons w (.cons (.simple 2) .nil)) .nil) .nil) = some true ∧
    UseFor.followed 1 (.cons w (.cons (.simple 2) .nil)) = some true ∧ UseFor.followed 1 (.cons w .nil) = some false ∧
    UseFor.followed 1 (.cons (.each 3 4 .nil (.cons w .nil)) (.cons (.simple 2) .nil)) = some false ∧
    UseFor.followed 1 (.cons (.try_ w .nil .nil .nil .nil) (.cons (.simple 2) .nil)) = some false ∧
    UseFor.followed 1 (.cons (.simple 2) .nil) = none := by
  decide +kernel

end Verif
