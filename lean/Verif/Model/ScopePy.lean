import Verif.Model.Scope

/-!
Which variable a name stands for in Python (specification): The Python Language Reference, section 4.2 (naming and binding), and
PEP 572 for `:=`.
-/

namespace Verif.Scope

/-- Kinds of scopes -/
inductive Kind where
  | module
  | fn
  | cls
  | comp
  deriving DecidableEq, Repr

/-- A scope: its number, and for each name that is bound or declared in it the scope of the variable -/
structure Frame where
  kind : Kind
  id : Nat
  decl : Dict

/-- A name that is not bound in the innermost scope: the nearest scope that binds it and is not a class -/
def outer : List Frame → Str → Option Nat
  | [], _ => none
  | f :: fs, x =>
    if f.kind = .cls then outer fs x
    else
      match f.decl.lookup x with
      | some s => some s
      | none => outer fs x

/-- The scope of the variable that a name stands for; the innermost scope comes first. There is none for names that nothing binds,
which may be built-in. -/
def varOf : List Frame → Str → Option Nat
  | [], _ => none
  | f :: fs, x =>
    match f.decl.lookup x with
    | some s => some s
    | none => outer fs x

/-- An occurrence of a name, the name, and the scope of the variable -/
abbrev Meaning := Nat × Str × Option Nat

mutual
/-- What `:=` in an expression binds in the scope of the expression -/
def Exp.walrus : Exp → List Str
  | .name _ _ => []
  | .many es => es.walrus
  | .skipped es => es.walrus
  | .lam _ _ _ => []
  | .comp _ gens ws es => ws.map (·.1) ++ gens.walrus ++ es.walrus
/-- What `:=` in expressions binds -/
def Exps.walrus : Exps → List Str
  | .nil => []
  | .cons e rest => e.walrus ++ rest.walrus
/-- What `:=` binds -/
def Gens.walrus : Gens → List Str
  | .nil => []
  | .cons _ it ifs rest => it.walrus ++ ifs.walrus ++ rest.walrus
end

/-- The scopes around comprehensions -/
def enclosing (fs : List Frame) : List Frame := fs.dropWhile (fun f => f.kind = .comp)

mutual
/-- What the names in an expression stand for -/
def Exp.means : Exp → List Frame → List Meaning
  | .name x id, fs => [(id, x, varOf fs x)]
  | .many es, fs => es.means fs
  | .skipped es, fs => es.means fs
  | .lam s ps b, fs =>
    ps.map (fun p => (p.2, p.1, some s)) ++ b.means (⟨.fn, s, here s ps ++ b.walrus.map (fun x => (x, s))⟩ :: fs)
  | .comp s gens ws es, fs =>
    gens.means s ⟨.comp, s, gens.all s []⟩ true fs ++ ws.map (fun w => (w.2, w.1, varOf (enclosing fs) w.1)) ++
      es.means (⟨.comp, s, gens.all s []⟩ :: fs)
/-- What the names in expressions stand for -/
def Exps.means : Exps → List Frame → List Meaning
  | .nil, _ => []
  | .cons e rest, fs => e.means fs ++ rest.means fs
/-- What is first iterated over belongs to the scope around the comprehension. -/
def Gens.means : Gens → Nat → Frame → Bool → List Frame → List Meaning
  | .nil, _, _, _, _ => []
  | .cons ts it ifs rest, s, f, first, fs =>
    ts.map (fun p => (p.2, p.1, some s)) ++ it.means (if first then fs else f :: fs) ++ ifs.means (f :: fs) ++
      rest.means s f false fs
end

/-- `import a.b` binds `a`. -/
def boundImport (module : Str) (alias : Option Str) : Str := alias.getD (module.takeWhile (· ≠ '.'))

mutual
/-- The names that a statement binds in its scope -/
def Stmt.binds : Stmt → List Str
  | .expr e => e.walrus
  | .bind x _ => [x]
  | .imp m a _ => [boundImport m a]
  | .del x _ => [x]
  | .glob _ => []
  | .nonloc _ => []
  | .block ss => ss.binds
  | .def_ x _ _ ann _ ds _ => x :: (ann.walrus ++ ds.walrus)
  | .class_ x _ _ _ => [x]
/-- The names that statements bind -/
def Stmts.binds : Stmts → List Str
  | .nil => []
  | .cons s rest => s.binds ++ rest.binds
end

mutual
/-- The names that are declared `global` in the scope of the statement -/
def Stmt.globs : Stmt → List Str
  | .glob xs => xs
  | .block ss => ss.globs
  | _ => []
/-- The names that are declared `global` -/
def Stmts.globs : Stmts → List Str
  | .nil => []
  | .cons s rest => s.globs ++ rest.globs
end

mutual
/-- The names that are declared `nonlocal` in the scope of the statement -/
def Stmt.nonlocs : Stmt → List Str
  | .nonloc xs => xs
  | .block ss => ss.nonlocs
  | _ => []
/-- The names that are declared `nonlocal` -/
def Stmts.nonlocs : Stmts → List Str
  | .nil => []
  | .cons s rest => s.nonlocs ++ rest.nonlocs
end

mutual
/-- The names that are declared `global` anywhere -/
def Stmt.allGlobs : Stmt → List Str
  | .glob xs => xs
  | .block ss => ss.allGlobs
  | .def_ _ _ _ _ _ _ b => b.allGlobs
  | .class_ _ _ _ b => b.allGlobs
  | _ => []
/-- The names that are declared `global` anywhere -/
def Stmts.allGlobs : Stmts → List Str
  | .nil => []
  | .cons s rest => s.allGlobs ++ rest.allGlobs
end

/-- The scope of a function or class. The last scope of `fs` is the module, which `nonlocal` does not refer to. -/
def frameOf (kind : Kind) (id : Nat) (params : List Occ) (b : Stmts) (fs : List Frame) : Frame :=
  ⟨kind, id, b.globs.map (fun x => (x, 0)) ++ b.nonlocs.map (fun x => (x, (outer fs.dropLast x).getD id)) ++ here id params ++
    b.binds.map (fun x => (x, id))⟩

/-- The scope of a module: what is declared `global` is bound there, too. -/
def moduleFrame (p : Stmts) : Frame := ⟨.module, 0, (p.binds ++ p.allGlobs).map (fun x => (x, 0))⟩

mutual
/-- What the names in a statement stand for -/
def Stmt.means : Stmt → List Frame → List Meaning
  | .expr e, fs => e.means fs
  | .bind x id, fs => [(id, x, varOf fs x)]
  | .imp m a id, fs => [(id, boundImport m a, varOf fs (boundImport m a))]
  | .del x id, fs => [(id, x, varOf fs x)]
  | .glob _, _ => []
  | .nonloc _, _ => []
  | .block ss, fs => ss.means fs
  | .def_ x id s ann ps ds b, fs =>
    (id, x, varOf fs x) :: (ann.means fs ++ ps.map (fun p => (p.2, p.1, some s)) ++ ds.means fs ++
      b.means (frameOf .fn s ps b fs :: fs))
  | .class_ x id s b, fs => (id, x, varOf fs x) :: b.means (frameOf .cls s [] b fs :: fs)
/-- What the names in statements stand for -/
def Stmts.means : Stmts → List Frame → List Meaning
  | .nil, _ => []
  | .cons s rest, fs => s.means fs ++ rest.means fs
end

/-- What the names in a program stand for -/
def meaning (p : Stmts) : List Meaning := p.means [moduleFrame p]

/-- Those that stand for a variable of the program -/
def known (ms : List Meaning) : List Event :=
  ms.filterMap (fun m => m.2.2.map (fun s => (m.1, m.2.1, s)))

/-! ### Programs where nothing is used too early

For each scope around, the names that have been bound in it so far: a name has to be bound, in the order of the text, before it is
used in the same scope, or in a lambda or comprehension there. Bodies of functions may use whatever is bound around them.
-/

/-- A scope and what has been bound in it so far -/
abbrev Seen := Frame × List Str

/-- A name that is not bound in the innermost scope; classes around must not bind it either -/
def okOuter : List Seen → Str → Bool
  | [], _ => true
  | (f, seen) :: c, x =>
    if f.kind = .cls then !seen.contains x && okOuter c x
    else if seen.contains x then true
    else (f.decl.lookup x).isNone && okOuter c x

/-- The name is bound already in the scope that binds it. -/
def okUse : List Seen → Str → Bool
  | [], _ => true
  | (f, seen) :: c, x =>
    if seen.contains x then true
    else (f.decl.lookup x).isNone && okOuter c x

mutual
/-- None of the names occurs. -/
def Exp.avoids (xs : List Str) : Exp → Bool
  | .name x _ => !xs.contains x
  | .many es => es.avoids xs
  | .skipped es => es.avoids xs
  | .lam _ _ b => b.avoids xs
  | .comp _ gens _ es => gens.avoids xs && es.avoids xs
/-- None of the names occurs. -/
def Exps.avoids (xs : List Str) : Exps → Bool
  | .nil => true
  | .cons e rest => e.avoids xs && rest.avoids xs
/-- None of the names occurs. -/
def Gens.avoids (xs : List Str) : Gens → Bool
  | .nil => true
  | .cons _ it ifs rest => it.avoids xs && ifs.avoids xs && rest.avoids xs
end

/-- There is nothing. -/
def Exps.isNil : Exps → Bool
  | .nil => true
  | .cons _ _ => false

mutual
/-- Names are bound before they are used, `:=` is not used in comprehensions, comprehensions do not iterate over a name that they
bind, and each expression is visited. -/
def Exp.ok : Exp → List Seen → Bool
  | .name x _, c => okUse c x
  | .many es, c => es.ok c
  | .skipped es, _ => es.isNil
  | .lam s ps b, c => b.ok ((⟨.fn, s, here s ps ++ b.walrus.map (fun x => (x, s))⟩, ps.map (·.1)) :: c)
  | .comp s gens ws es, c =>
    ws.isEmpty && gens.ok s ⟨.comp, s, gens.all s []⟩ true [] c &&
      es.ok ((⟨.comp, s, gens.all s []⟩, (gens.all s []).map (·.1)) :: c)
/-- As above -/
def Exps.ok : Exps → List Seen → Bool
  | .nil, _ => true
  | .cons e rest, c => e.ok c && rest.ok c
/-- As above -/
def Gens.ok : Gens → Nat → Frame → Bool → List Str → List Seen → Bool
  | .nil, _, _, _, _, _ => true
  | .cons ts it ifs rest, s, f, first, seen, c =>
    (if first then it.ok c && it.avoids (ts.map (·.1)) else it.ok ((f, ts.map (·.1) ++ seen) :: c)) &&
      ifs.ok ((f, ts.map (·.1) ++ seen) :: c) && rest.ok s f false (ts.map (·.1) ++ seen) c
end

/-- The scope around -/
def parentOf : List Seen → Nat
  | [] => 0
  | (g, _) :: _ => g.id

/-- A name is declared before it is bound. -/
def okBind (f : Frame) (seen : List Str) (x : Str) : Bool := seen.contains x || f.decl.lookup x == some f.id

mutual
/-- The names that a statement binds or declares, except by definitions in it and `:=` -/
def Stmt.sees : Stmt → List Str
  | .bind x _ => [x]
  | .imp m a _ => [boundImport m a]
  | .glob xs => xs
  | .nonloc xs => xs
  | .block ss => ss.sees
  | .def_ x .. => [x]
  | .class_ x .. => [x]
  | _ => []
/-- The names that statements bind or declare -/
def Stmts.sees : Stmts → List Str
  | .nil => []
  | .cons s rest => rest.sees ++ s.sees
end

mutual
/-- A statement that is no definition: besides, there is no `del`, `import` binds the whole name, `nonlocal` refers to the next
scope, and no definition is in an `if` or another statement. -/
def Stmt.ok : Stmt → Frame → List Str → List Seen → Bool
  | .expr e, f, seen, c => e.ok ((f, seen) :: c)
  | .bind x _, f, seen, _ => okBind f seen x
  | .imp m a _, f, seen, _ => (a.isSome || !m.contains '.') && okBind f seen (boundImport m a)
  | .del _ _, _, _, _ => false
  | .glob _, _, _, _ => true
  | .nonloc xs, f, _, c => xs.all (fun x => f.decl.lookup x == some (parentOf c))
  | .block ss, f, seen, c => ss.ok f seen c
  | .def_ .., _, _, _ => false
  | .class_ .., _, _, _ => false
/-- Statements -/
def Stmts.ok : Stmts → Frame → List Str → List Seen → Bool
  | .nil, _, _, _ => true
  | .cons s rest, f, seen, c => s.ok f seen c && rest.ok f (s.sees ++ seen) c
end

mutual
/-- A definition: besides, defaults do not have the names of arguments, and arguments are not declared `global` or `nonlocal` (which
Python rejects). -/
def Stmt.okDef : Stmt → Frame → List Seen → Bool
  | .def_ _ _ s ann ps ds b, f, c =>
    ann.ok ((f, f.decl.map (·.1)) :: c) && ds.ok ((f, f.decl.map (·.1)) :: c) && ds.avoids (ps.map (·.1)) &&
      ps.all (fun p => (frameOf .fn s ps b (f :: c.map (·.1))).decl.lookup p.1 == some s) &&
      b.okBody (frameOf .fn s ps b (f :: c.map (·.1))) (ps.map (·.1)) ((f, f.decl.map (·.1)) :: c) &&
      b.okDefs (frameOf .fn s ps b (f :: c.map (·.1))) ((f, f.decl.map (·.1)) :: c)
  | .class_ _ _ s b, f, c =>
    b.okBody (frameOf .cls s [] b (f :: c.map (·.1))) [] ((f, f.decl.map (·.1)) :: c) &&
      b.okDefs (frameOf .cls s [] b (f :: c.map (·.1))) ((f, f.decl.map (·.1)) :: c)
  | _, _, _ => true
/-- The statements of a body but for definitions -/
def Stmts.okBody : Stmts → Frame → List Str → List Seen → Bool
  | .nil, _, _, _ => true
  | .cons s rest, f, seen, c =>
    (match s.defined with
      | some (x, _) => okBind f seen x
      | none => s.ok f seen c) && rest.okBody f (s.sees ++ seen) c
/-- The definitions of a body -/
def Stmts.okDefs : Stmts → Frame → List Seen → Bool
  | .nil, _, _ => true
  | .cons s rest, f, c => s.okDef f c && rest.okDefs f c
end

/-- Programs: besides, each name that is declared `global` is bound in the module. -/
def ok (p : Stmts) : Bool :=
  p.okBody (moduleFrame p) [] [] && p.okDefs (moduleFrame p) [] && p.allGlobs.all (fun x => p.binds.contains x)

end Verif.Scope
