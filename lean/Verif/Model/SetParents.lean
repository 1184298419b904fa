import Verif.Model.Antiunify

/-!
Anti-unification with `set_parents`, which fails for values that it does not know, `edulint/linting/analyses/antiunify.py:243-244, 494-510`.
-/

namespace Verif.Aunify

/-- The constants that `set_parents` lets pass, `edulint/linting/analyses/antiunify.py:507-510`: `None`, truth values, integers, strings, and of the other ones
those for which `simple` holds, that is `float`, `bytes`, `Ellipsis` and members of enumerations. Python's only other constants are complex numbers. -/
def Const.known (simple : Nat → Bool) : Const → Bool
  | .other k => simple k
  | _ => true

mutual
/-- Whether `set_parents` with `recursive=False` ends without an exception, `edulint/linting/analyses/antiunify.py:494-510`. Placeholders are nodes. -/
def Core.parentsOk (simple : Nat → Bool) : Core → Bool
  | .const c => c.known simple
  | .seq l => Core.parentsOkAll simple l
  | .node _ _ => true
  | .avar _ _ => true

def Core.parentsOkAll (simple : Nat → Bool) : List Core → Bool
  | [] => true
  | c :: l => c.parentsOk simple && Core.parentsOkAll simple l
end

/-- The end of `_aunify_by_attrs`, `edulint/linting/analyses/antiunify.py:243-249`. -/
def finishParents (simple : Nat → Bool) (stop : StopOn) (cls : Str) (cores : List (Str × Core)) (avars : List Avar) (num : Nat) : Result Core :=
  if cores.all fun p => p.2.parentsOk simple then finish stop (.node cls cores) avars num else .error (.py .assertionError)

/-- `Antiunify.antiunify`, `edulint/linting/analyses/antiunify.py:131-249`, as `aunify`, with the parents set. -/
def aunifyParents (simple : Nat → Bool) (L : Lang) (stop : StopOn) : Nat → Nat → List Ast → Result Core
  | 0, _, _ => .error (.py .recursionError)
  | limit + 1, num, ts =>
    match ts with
    | [] => .error (.py .indexError)
    | .seq l :: _ =>
      match allSeqs ts with
      | none => .error (.py .assertionError)
      | some ls =>
        if ls.all (fun m => decide (m.length = l.length)) then
          match aunifyEach (aunifyParents simple L stop limit) num (columns l.length ls) with
          | .error e => .error e
          | .ok (cores, avars, num) => .ok (.seq cores, avars, num)
        else newAunifier stop num ts
    | .const c :: _ =>
      if ts.any Ast.isNode then newAunifier stop num ts else aunifyConsts stop num c ts
    | .node cls attrs :: _ =>
      if ts.all (fun t => t.isInstance L (.node cls attrs)) then
        if isNameCls cls then
          match getattrs "name".toList ts with
          | none => .error (.py .attributeError)
          | some names =>
            match newAunifier stop num names with
            | .error e => .error e
            | .ok (core, avars, num) => finishParents simple stop cls [("name".toList, core)] avars num
        else
          match aunifyAttrs (aunifyParents simple L stop limit) ts num (L.fields cls) with
          | .error e => .error e
          | .ok (cores, avars, num) => finishParents simple stop cls cores avars num
      else newAunifier stop num ts

end Verif.Aunify
