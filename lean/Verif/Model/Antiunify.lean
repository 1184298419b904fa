import Verif.Base.Str

/-!
Anti-unification of syntax trees, `edulint/linting/analyses/antiunify.py`.

Nodes of astroid are a class with attributes. Lists and tuples are not told apart. Fragments have no placeholders of
an earlier anti-unification in them (`edulint/linting/analyses/antiunify.py:114-129` is not modelled), and constructors
of nodes do not fail.
-/

namespace Verif.Aunify

/-- Values of attributes that are not nodes. `other` are values that are equal to no value of another kind. -/
inductive Const where
  | none
  | bool (b : Bool)
  | int (i : Int)
  | str (s : Str)
  | other (k : Nat)
  deriving DecidableEq

def Const.num : Const → Option Int
  | .bool b => some (if b then 1 else 0)
  | .int i => some i
  | _ => Option.none

/-- Python's `==`. -/
def Const.pyEq (a b : Const) : Bool :=
  decide (a = b) ||
    match a.num, b.num with
    | some x, some y => decide (x = y)
    | _, _ => false

/-- A node, or a value of an attribute of a node. -/
inductive Ast where
  | const (c : Const)
  | seq (l : List Ast)
  | node (cls : Str) (attrs : List (Str × Ast))

/-- A tree with placeholders (`AunifyVar`, `edulint/linting/analyses/antiunify.py:17-23`); `subs` are the values recorded
for the fragments. A list of which only a placeholder for all of it is left is that placeholder. -/
inductive Core where
  | const (c : Const)
  | seq (l : List Core)
  | node (cls : Str) (attrs : List (Str × Core))
  | avar (id : Nat) (subs : List Ast)

mutual
/-- Equality of trees, decided by comparing them. -/
def Ast.beq : Ast → Ast → Bool
  | .const c, .const d => decide (c = d)
  | .seq l, .seq m => Ast.beqList l m
  | .node c as, .node d bs => decide (c = d) && Ast.beqAttrs as bs
  | _, _ => false

def Ast.beqList : List Ast → List Ast → Bool
  | [], [] => true
  | a :: l, b :: m => Ast.beq a b && Ast.beqList l m
  | _, _ => false

def Ast.beqAttrs : List (Str × Ast) → List (Str × Ast) → Bool
  | [], [] => true
  | (x, a) :: l, (y, b) :: m => decide (x = y) && Ast.beq a b && Ast.beqAttrs l m
  | _, _ => false
end

mutual
theorem Ast.eq_of_beq : ∀ (a b : Ast), Ast.beq a b = true → a = b
  | .const c, .const d, h => by simp only [Ast.beq, decide_eq_true_eq] at h; rw [h]
  | .seq l, .seq m, h => by simp only [Ast.beq] at h; rw [Ast.eq_of_beqList l m h]
  | .node c as, .node d bs, h => by
    simp only [Ast.beq, Bool.and_eq_true, decide_eq_true_eq] at h
    rw [h.1, Ast.eq_of_beqAttrs as bs h.2]
  | .const _, .seq _, h => by simp [Ast.beq] at h
  | .const _, .node _ _, h => by simp [Ast.beq] at h
  | .seq _, .const _, h => by simp [Ast.beq] at h
  | .seq _, .node _ _, h => by simp [Ast.beq] at h
  | .node _ _, .const _, h => by simp [Ast.beq] at h
  | .node _ _, .seq _, h => by simp [Ast.beq] at h

theorem Ast.eq_of_beqList : ∀ (l m : List Ast), Ast.beqList l m = true → l = m
  | [], [], _ => rfl
  | a :: l, b :: m, h => by
    simp only [Ast.beqList, Bool.and_eq_true] at h
    rw [Ast.eq_of_beq a b h.1, Ast.eq_of_beqList l m h.2]
  | [], _ :: _, h => by simp [Ast.beqList] at h
  | _ :: _, [], h => by simp [Ast.beqList] at h

theorem Ast.eq_of_beqAttrs : ∀ (l m : List (Str × Ast)), Ast.beqAttrs l m = true → l = m
  | [], [], _ => rfl
  | (x, a) :: l, (y, b) :: m, h => by
    simp only [Ast.beqAttrs, Bool.and_eq_true, decide_eq_true_eq] at h
    rw [h.1.1, Ast.eq_of_beq a b h.1.2, Ast.eq_of_beqAttrs l m h.2]
  | [], _ :: _, h => by simp [Ast.beqAttrs] at h
  | _ :: _, [], h => by simp [Ast.beqAttrs] at h
end

mutual
theorem Ast.beq_refl : ∀ (a : Ast), Ast.beq a a = true
  | .const c => by simp [Ast.beq]
  | .seq l => by rw [Ast.beq]; exact Ast.beqList_refl l
  | .node c as => by simp only [Ast.beq, decide_true, Bool.true_and]; exact Ast.beqAttrs_refl as

theorem Ast.beqList_refl : ∀ (l : List Ast), Ast.beqList l l = true
  | [] => by simp [Ast.beqList]
  | a :: l => by simp [Ast.beqList, Ast.beq_refl a, Ast.beqList_refl l]

theorem Ast.beqAttrs_refl : ∀ (l : List (Str × Ast)), Ast.beqAttrs l l = true
  | [] => by simp [Ast.beqAttrs]
  | (x, a) :: l => by simp [Ast.beqAttrs, Ast.beq_refl a, Ast.beqAttrs_refl l]
end

instance : DecidableEq Ast := fun a b =>
  if h : Ast.beq a b = true then .isTrue (Ast.eq_of_beq a b h)
  else .isFalse (fun heq => h (heq ▸ Ast.beq_refl a))

/-- What is known of the classes of nodes. -/
structure Lang where
  /-- `get_all_fields`, `edulint/linting/analyses/antiunify.py:85-86` -/
  fields : Str → List Str
  /-- whether the first class is the second one or a subclass of it -/
  isSub : Str → Str → Bool

def Ast.isNode : Ast → Bool
  | .node _ _ => true
  | _ => false

/-- `isinstance(n, type(some))` for a node `some`; nothing but a node is an instance of a class of nodes, and a node
is an instance of no other class. -/
def Ast.isInstance (L : Lang) (n some : Ast) : Bool :=
  match n, some with
  | .node c _, .node d _ => L.isSub c d
  | .node _ _, _ => false
  | _, .node _ _ => false
  | _, _ => true

/-- `isinstance(some, (nodes.Name, nodes.AssignName))` -/
def isNameCls (cls : Str) : Bool := decide (cls = "Name".toList ∨ cls = "AssignName".toList)

/-- `getattr` -/
def Ast.getattr (n : Ast) (attr : Str) : Option Ast :=
  match n with
  | .node _ attrs => attrs.lookup attr
  | _ => none

/-- Why anti-unification ends without a result: `DisallowedAntiunification`,
`edulint/linting/analyses/antiunify.py:54-55`, or another exception. -/
inductive Err where
  | disallowed
  | py (e : PyErr)

/-- A placeholder that was made: its number and the values recorded. -/
abbrev Avar := Nat × List Ast

/-- The core, the placeholders, and the number of the last placeholder made. -/
abbrev Result (α : Type) := Except Err (α × List Avar × Nat)

/-- `stop_on`; it gets to know the node that has been built, if any, and the placeholders. -/
abbrev StopOn := Option Core → List Avar → Bool

/-- `_new_aunifier`, `edulint/linting/analyses/antiunify.py:96-106`. -/
def newAunifier (stop : StopOn) (num : Nat) (ts : List Ast) : Result Core :=
  if stop none [(num + 1, ts)] then .error .disallowed
  else .ok (.avar (num + 1) ts, [(num + 1, ts)], num + 1)

/-- `_aunify_consts`, `edulint/linting/analyses/antiunify.py:108-112`, for a first value that is not a list. -/
def aunifyConsts (stop : StopOn) (num : Nat) (c : Const) (ts : List Ast) : Result Core :=
  if ts.all (fun t => match t with | .const d => d.pyEq c | _ => false) then .ok (.const c, [], num)
  else newAunifier stop num ts

/-- The loop of `_antiunify_lists`, `edulint/linting/analyses/antiunify.py:181-192`, over the values at each index. -/
def aunifyEach (f : Nat → List Ast → Result Core) : Nat → List (List Ast) → Result (List Core)
  | num, [] => .ok ([], [], num)
  | num, children :: rest =>
    match f num children with
    | .error e => .error e
    | .ok (core, avars, num) =>
      match aunifyEach f num rest with
      | .error e => .error e
      | .ok (cores, avars', num) => .ok (core :: cores, avars ++ avars', num)

/-- `[getattr(n, attr) for n in to_aunify]` -/
def getattrs (attr : Str) : List Ast → Option (List Ast)
  | [] => some []
  | t :: ts =>
    match t.getattr attr, getattrs attr ts with
    | some x, some xs => some (x :: xs)
    | _, _ => none

/-- `_aunify_many_attrs`, `edulint/linting/analyses/antiunify.py:194-208`. -/
def aunifyAttrs (f : Nat → List Ast → Result Core) (ts : List Ast) : Nat → List Str → Result (List (Str × Core))
  | num, [] => .ok ([], [], num)
  | num, attr :: rest =>
    match getattrs attr ts with
    | none => .error (.py .attributeError)
    | some vals =>
      match f num vals with
      | .error e => .error e
      | .ok (core, avars, num) =>
        match aunifyAttrs f ts num rest with
        | .error e => .error e
        | .ok (cores, avars', num) => .ok ((attr, core) :: cores, avars ++ avars', num)

/-- The lists, if all are. -/
def allSeqs : List Ast → Option (List (List Ast))
  | [] => some []
  | .seq l :: ts => (allSeqs ts).map (l :: ·)
  | _ :: _ => none

/-- The values at each index of lists of the same length. -/
def columns (n : Nat) (ls : List (List Ast)) : List (List Ast) :=
  (List.range n).map fun i => ls.map fun l => (l[i]?).getD (.const .none)

/-- The check at the end of `_aunify_by_attrs`, `edulint/linting/analyses/antiunify.py:246-249`. -/
def finish (stop : StopOn) (core : Core) (avars : List Avar) (num : Nat) : Result Core :=
  if stop (some core) avars then .error .disallowed else .ok (core, avars, num)

/-- `Antiunify.antiunify`, `edulint/linting/analyses/antiunify.py:131-249`, with `limit` levels of recursion left. For
lists of pairs of nodes of different lengths a second placeholder is made and tested
(`edulint/linting/analyses/antiunify.py:175-178`), which is not modelled. -/
def aunify (L : Lang) (stop : StopOn) : Nat → Nat → List Ast → Result Core
  | 0, _, _ => .error (.py .recursionError)
  | limit + 1, num, ts =>
    match ts with
    | [] => .error (.py .indexError)
    | .seq l :: _ =>
      match allSeqs ts with
      | none => .error (.py .assertionError)
      | some ls =>
        if ls.all (fun m => decide (m.length = l.length)) then
          match aunifyEach (aunify L stop limit) num (columns l.length ls) with
          | .error e => .error e
          | .ok (cores, avars, num) => .ok (.seq cores, avars, num)
        else newAunifier stop num ts
    | .const c :: _ =>
      if ts.any Ast.isNode then newAunifier stop num ts else aunifyConsts stop num c ts
    | .node cls attrs :: _ =>
      if ts.all (fun t => t.isInstance L (.node cls attrs)) then
        if isNameCls cls then
          match getattrs "name".toList ts with
          | none => .error (.py .attributeError)
          | some names =>
            match newAunifier stop num names with
            | .error e => .error e
            | .ok (core, avars, num) => finish stop (.node cls [("name".toList, core)]) avars num
        else
          match aunifyAttrs (aunify L stop limit) ts num (L.fields cls) with
          | .error e => .error e
          | .ok (cores, avars, num) => finish stop (.node cls cores) avars num
      else newAunifier stop num ts

/-! ### Placeholders of a core -/

/-- A placeholder in a tree; `isName` tells whether its parent is the name of a variable. -/
structure Hole where
  id : Nat
  isName : Bool
  subs : List Ast
  deriving DecidableEq

mutual
/-- `get_avars`, `edulint/linting/analyses/antiunify.py:269-284`. -/
def Core.holes (isName : Bool) : Core → List Hole
  | .const _ => []
  | .avar id subs => [⟨id, isName, subs⟩]
  | .seq l => Core.holesAll isName l
  | .node cls attrs => Core.holesAttrs (isNameCls cls) attrs

def Core.holesAll (isName : Bool) : List Core → List Hole
  | [] => []
  | c :: l => c.holes isName ++ Core.holesAll isName l

def Core.holesAttrs (isName : Bool) : List (Str × Core) → List Hole
  | [] => []
  | (_, c) :: l => c.holes isName ++ Core.holesAttrs isName l
end

mutual
/-- The assignments `avar.parent.name = avar.subs[0]`, `edulint/linting/analyses/antiunify.py:465`, for the placeholders
with the given numbers. -/
def Core.rename (ids : List Nat) (isName : Bool) : Core → Core
  | .const c => .const c
  | .avar id subs =>
    if isName ∧ id ∈ ids then
      match subs with
      | .const c :: _ => .const c
      | _ => .avar id subs
    else .avar id subs
  | .seq l => .seq (Core.renameAll ids isName l)
  | .node cls attrs => .node cls (Core.renameAttrs ids (isNameCls cls) attrs)

def Core.renameAll (ids : List Nat) (isName : Bool) : List Core → List Core
  | [] => []
  | c :: l => c.rename ids isName :: Core.renameAll ids isName l

def Core.renameAttrs (ids : List Nat) (isName : Bool) : List (Str × Core) → List (Str × Core)
  | [] => []
  | (a, c) :: l => (a, c.rename ids isName) :: Core.renameAttrs ids isName l
end

/-! ### Merging -/

/-- The state of the loop of `get_merge_candidates`. -/
structure Merge where
  owner : List ((Nat × Ast) × List Ast)
  groups : List (List Ast × List Hole)
  forced : List (List Ast × List Hole)

/-- `d.setdefault(key, []).extend(values)` -/
def extendAt (key : List Ast) (values : List Hole) : List (List Ast × List Hole) → List (List Ast × List Hole)
  | [] => [(key, values)]
  | (k, vs) :: d => if k = key then (k, vs ++ values) :: d else (k, vs) :: extendAt key values d

/-- The name of a variable: `v.name` for `nodes.Name` and `nodes.AssignName`. -/
def Ast.varName (v : Ast) : Option Ast :=
  match v with
  | .node cls attrs => if isNameCls cls then attrs.lookup "name".toList else none
  | _ => none

/-- `enumerate(subs)` -/
def indexed (subs : List Ast) : List (Nat × Ast) := subs.zipIdx.map fun p => (p.2, p.1)

/-- `canonicals`, `edulint/linting/analyses/antiunify.py:388-397`. -/
def canonicals (owner : List ((Nat × Ast) × List Ast)) (h : Hole) : List (List Ast) :=
  let keys := if h.isName then indexed h.subs
    else (indexed h.subs).filterMap fun p => p.2.varName.map fun x => (p.1, x)
  (keys.filterMap fun k => owner.lookup k).eraseDups

/-- `all(s == subs[0] for s in subs)` -/
def allSame (subs : List Ast) : Bool := subs.all fun s => decide (some s = subs.head?)

/-- One iteration of the loop of `get_merge_candidates`, `edulint/linting/analyses/antiunify.py:379-418`; nothing if it
returns `None`. -/
def Merge.step (consistent : Bool) (s : Merge) (h : Hole) : Option Merge :=
  match h.subs with
  | .seq _ :: _ => some s
  | _ =>
    if !consistent && allSame h.subs then some { s with forced := extendAt h.subs [h] s.forced }
    else
      match canonicals s.owner h with
      | [] =>
        some { s with
          groups := if h.isName then extendAt h.subs [h] s.groups else s.groups
          owner := ((indexed h.subs).map fun k => (k, h.subs)) ++ s.owner }
      | [canon] =>
        if h.isName = true ∧ canon = h.subs ∧ canon ∈ s.groups.map Prod.fst then
          some { s with groups := extendAt canon [h] s.groups }
        else if consistent then none
        else some { s with groups := s.groups.filter fun g => decide (g.1 ≠ canon) }
      | cs =>
        if consistent then none
        else some { s with groups := s.groups.filter fun g => decide (g.1 ∉ cs) }

def Merge.steps (consistent : Bool) : Merge → List Hole → Option Merge
  | s, [] => some s
  | s, h :: hs =>
    match s.step consistent h with
    | none => none
    | some s => Merge.steps consistent s hs

/-- `get_merge_candidates`, `edulint/linting/analyses/antiunify.py:372-423`. -/
def mergeCandidates (consistent : Bool) (hs : List Hole) : Option (List (List Ast × List Hole)) :=
  (Merge.steps consistent ⟨[], [], []⟩ hs).map fun s => s.forced.foldl (fun groups g => extendAt g.1 g.2 groups) s.groups

/-- The numbers of the placeholders that are replaced by the name in the first fragment,
`edulint/linting/analyses/antiunify.py:462-465`; `mergeable` is `vars_can_be_merged` for names that are not all the same,
`edulint/linting/analyses/antiunify.py:426-447`. -/
def mergedIds (mergeable : List Hole → Bool) (groups : List (List Ast × List Hole)) : List Nat :=
  (groups.filter fun g => allSame g.1 || mergeable g.2).flatMap fun g => g.2.map Hole.id

/-- `antiunify`, `edulint/linting/analyses/antiunify.py:470-491`. The control flow graph of the core is built only for
`vars_can_be_merged`. -/
def antiunify (L : Lang) (stop : StopOn) (stopAfter : List Hole → Bool) (mergeable : List Hole → Bool) (consistent : Bool)
    (limit : Nat) (ts : List Ast) : Except PyErr (Option (Core × List Hole)) :=
  match aunify L stop limit 0 ts with
  | .error .disallowed => .ok none
  | .error (.py e) => .error e
  | .ok (core, _, _) =>
    match mergeCandidates consistent (core.holes false) with
    | none => .ok none
    | some groups =>
      if stopAfter ((core.rename (mergedIds mergeable groups) false).holes false) then .ok none
      else .ok (some (core.rename (mergedIds mergeable groups) false, (core.rename (mergedIds mergeable groups) false).holes false))

end Verif.Aunify
