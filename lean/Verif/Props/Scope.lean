import Verif.Lemmas.Scope

/-! C75: each name stands for the variable that Python's scoping rules give it. -/

namespace Verif.Scope

/-- In a program where each name is bound, in the order of the text, before it is used in the same scope (and which does without
what `ok` rules out), an event is recorded for exactly those occurrences of names that stand for a variable of the program, once for
each (reading and modifying at the same place count as one), and with the scope that the variable has in Python. -/
theorem C75_scopes_partial (p : Stmts) (h : ok p = true) : (collect p).Perm (known (meaning p)) := collect_perm p h

/-- In terms of single occurrences -/
theorem C75_occurrence_partial (p : Stmts) (h : ok p = true) (id : Nat) (x : Str) (s : Nat) :
    (id, x, s) ∈ collect p ↔ (id, x, some s) ∈ meaning p := by
  rw [(C75_scopes_partial p h).mem_iff, known, List.mem_filterMap]
  constructor
  · rintro ⟨⟨i, y, v⟩, hm, he⟩
    cases v with
    | none => simp at he
    | some v =>
      simp only [Option.map_some, Option.some.injEq, Prod.mk.injEq] at he
      obtain ⟨rfl, rfl, rfl⟩ := he
      exact hm
  · intro hm
    exact ⟨_, hm, rfl⟩

/-! ### An example -/

/-- Statements from a list -/
def stmts : List Stmt → Stmts
  | [] => .nil
  | s :: rest => .cons s (stmts rest)

/-- Expressions from a list -/
def exps : List Exp → Exps
  | [] => .nil
  | e :: rest => .cons e (exps rest)

/-- A use of a name -/
def use (x : String) (id : Nat) : Stmt := .expr (.name x.toList id)

/--
```
import math                            # 1
n = len(math)                          # 2, 3, 4
def f(a, b=n):                         # 5, scope 10; 6, 7, 8
    global total                       #
    total = [i + a for i in b]         # 9, 10, 11 (scope 20), 12, 13
    def g():                           # 14, scope 30
        nonlocal b
        b = h(lambda y: y + total)     # 15, 16, 17 (scope 40), 18, 19
    g()                                # 20
class A:                               # 21, scope 50
    k = n                              # 22, 23
    def m(self):                       # 24, scope 60; 25
        return self                    # 26
def h(x):                              # 27, scope 70; 28
    return f(x)                        # 29, 30
total = 0                              # 31
```
-/
def sample : Stmts := stmts
  [.imp "math".toList none 1,
   .block (stmts [.expr (.many (exps [.name "len".toList 3, .name "math".toList 4])), .bind "n".toList 2]),
   .def_ "f".toList 5 10 .nil [("a".toList, 6), ("b".toList, 7)] (exps [.name "n".toList 8]) (stmts
     [.glob ["total".toList],
      .block (stmts [.expr (.comp 20 (.cons [("i".toList, 12)] (.name "b".toList 13) .nil .nil) []
        (exps [.name "i".toList 10, .name "a".toList 11])), .bind "total".toList 9]),
      .def_ "g".toList 14 30 .nil [] .nil (stmts
        [.nonloc ["b".toList],
         .block (stmts [.expr (.many (exps [.name "h".toList 16, .lam 40 [("y".toList, 17)]
           (.many (exps [.name "y".toList 18, .name "total".toList 19]))])), .bind "b".toList 15])]),
      use "g" 20]),
   .class_ "A".toList 21 50 (stmts
     [.block (stmts [use "n" 23, .bind "k".toList 22]),
      .def_ "m".toList 24 60 .nil [("self".toList, 25)] .nil (stmts [use "self" 26])]),
   .def_ "h".toList 27 70 .nil [("x".toList, 28)] .nil (stmts
     [.expr (.many (exps [.name "f".toList 29, .name "x".toList 30]))]),
   .bind "total".toList 31]

example : ok sample = true := by decide +kernel

/-- The inner `b` is that of `f`, `total` is that of the module, and `len` is none of the program. -/
example : (15, "b".toList, 10) ∈ collect sample ∧ (9, "total".toList, 0) ∈ collect sample ∧ (19, "total".toList, 0) ∈ collect sample ∧
    (16, "h".toList, 0) ∈ collect sample ∧ (10, "i".toList, 20) ∈ collect sample ∧ (3, "len".toList, none) ∈ meaning sample ∧
    (collect sample).length = 30 := by
  decide +kernel

/-- An event with another scope would not do. -/
example : (15, "b".toList, some 30) ∉ meaning sample := by decide +kernel

/-! ### Programs where it is different -/

/-- A variable of the function is read before it gets a value, which Python refuses; it is taken for the variable of the module.
```
x = 1              # 1
def f():           # 2, scope 10
    print(x)       # 3, 4
    x = 2          # 5
```
-/
def early : Stmts := stmts
  [.bind "x".toList 1,
   .def_ "f".toList 2 10 .nil [] .nil (stmts
     [.expr (.many (exps [.name "print".toList 3, .name "x".toList 4])), .bind "x".toList 5])]

theorem C75_early_counterexample : (4, "x".toList, 0) ∈ collect early ∧ (4, "x".toList, some 10) ∈ meaning early ∧
    (5, "x".toList, 10) ∈ collect early := by decide +kernel

/-- Also in a loop, where the value comes from the iteration before, and nothing is wrong with the program.
```
x = 1                  # 1
def f(n):              # 2, scope 10; 3
    for i in n:        # 4, 5
        if i:          # 6
            print(x)   # 7, 8
        x = i          # 9, 10
```
-/
def earlyLoop : Stmts := stmts
  [.bind "x".toList 1,
   .def_ "f".toList 2 10 .nil [("n".toList, 3)] .nil (stmts
     [.block (stmts [.bind "i".toList 4, use "n" 5,
       .block (stmts [use "i" 6, .expr (.many (exps [.name "print".toList 7, .name "x".toList 8]))]),
       .block (stmts [use "i" 10, .bind "x".toList 9])])])]

theorem C75_early_loop_counterexample : (8, "x".toList, 0) ∈ collect earlyLoop ∧ (8, "x".toList, some 10) ∈ meaning earlyLoop ∧
    (9, "x".toList, 10) ∈ collect earlyLoop := by decide +kernel

/-- Methods do not see variables of the class.
```
x = 1                  # 1
class A:               # 2, scope 10
    x = 2              # 3
    def m(self):       # 4, scope 20; 5
        return x       # 6
```
-/
def method : Stmts := stmts
  [.bind "x".toList 1,
   .class_ "A".toList 2 10 (stmts
     [.bind "x".toList 3,
      .def_ "m".toList 4 20 .nil [("self".toList, 5)] .nil (stmts [use "x" 6])])]

theorem C75_class_counterexample : (6, "x".toList, 10) ∈ collect method ∧ (6, "x".toList, some 0) ∈ meaning method := by
  decide +kernel

/-- A function that is defined in an `if` is not recorded at all.
```
if c:                  # 1
    def f():           # 2, scope 10
        pass
f()                    # 3
```
-/
def inIf : Stmts := stmts
  [.block (stmts [use "c" 1, .def_ "f".toList 2 10 .nil [] .nil .nil]), use "f" 3]

theorem C75_inner_definition_counterexample : collect inIf = [] ∧ (2, "f".toList, some 0) ∈ meaning inIf ∧
    (3, "f".toList, some 0) ∈ meaning inIf := by decide +kernel

/-- What a comprehension iterates over belongs to the scope around it.
```
x = y                  # 1, 2
[x for x in x]         # 3 (scope 10), 4, 5
```
-/
def over : Stmts := stmts
  [.block (stmts [use "y" 2, .bind "x".toList 1]),
   .expr (.comp 10 (.cons [("x".toList, 4)] (.name "x".toList 5) .nil .nil) [] (exps [.name "x".toList 3]))]

theorem C75_comprehension_counterexample : (5, "x".toList, 10) ∈ collect over ∧ (5, "x".toList, some 0) ∈ meaning over := by
  decide +kernel

/-- Defaults belong to the scope around the function.
```
x = 1                  # 1
def f(x=x):            # 2, scope 10; 3, 4
    pass
```
-/
def default : Stmts := stmts
  [.bind "x".toList 1, .def_ "f".toList 2 10 .nil [("x".toList, 3)] (exps [.name "x".toList 4]) .nil]

theorem C75_default_counterexample : (4, "x".toList, 10) ∈ collect default ∧ (4, "x".toList, some 0) ∈ meaning default := by
  decide +kernel

/-- `nonlocal` may refer to a scope further away.
```
def f():                   # 1, scope 10
    x = 1                  # 2
    def g():               # 3, scope 20
        def h():           # 4, scope 30
            nonlocal x
            x = 2          # 5
```
-/
def further : Stmts := stmts
  [.def_ "f".toList 1 10 .nil [] .nil (stmts
    [.bind "x".toList 2,
     .def_ "g".toList 3 20 .nil [] .nil (stmts
       [.def_ "h".toList 4 30 .nil [] .nil (stmts [.nonloc ["x".toList], .bind "x".toList 5])])])]

theorem C75_nonlocal_counterexample : (5, "x".toList, 20) ∈ collect further ∧ (5, "x".toList, some 10) ∈ meaning further ∧
    (2, "x".toList, 10) ∈ collect further := by decide +kernel

/-- After `del` in one branch, the name is not recorded any more.
```
x = 1                  # 1
if c:                  # 2
    del x              # 3
print(x)               # 4, 5
```
-/
def deleted : Stmts := stmts
  [.bind "x".toList 1, .block (stmts [use "c" 2, .del "x".toList 3]),
   .expr (.many (exps [.name "print".toList 4, .name "x".toList 5]))]

theorem C75_del_counterexample : (∀ e ∈ collect deleted, e.1 ≠ 5) ∧ (5, "x".toList, some 0) ∈ meaning deleted := by
  decide +kernel

/-- A variable of the module that only a function assigns to is not seen by other functions.
```
def f():               # 1, scope 10
    global x
    x = 1              # 2
def g():               # 3, scope 20
    return x           # 4
```
-/
def elsewhere : Stmts := stmts
  [.def_ "f".toList 1 10 .nil [] .nil (stmts [.glob ["x".toList], .bind "x".toList 2]),
   .def_ "g".toList 3 20 .nil [] .nil (stmts [use "x" 4])]

theorem C75_global_counterexample : (∀ e ∈ collect elsewhere, e.1 ≠ 4) ∧ (4, "x".toList, some 0) ∈ meaning elsewhere ∧
    (2, "x".toList, 0) ∈ collect elsewhere := by decide +kernel

/-- The body of a lambda sees what is bound later.
```
f = lambda: x          # 1, 2 (scope 10)
x = 1                  # 3
```
-/
def lambdaEarly : Stmts := stmts
  [.block (stmts [.expr (.lam 10 [] (.name "x".toList 2)), .bind "f".toList 1]), .bind "x".toList 3]

theorem C75_lambda_counterexample : (∀ e ∈ collect lambdaEarly, e.1 ≠ 2) ∧ (2, "x".toList, some 0) ∈ meaning lambdaEarly := by
  decide +kernel

/-- `import a.b` binds `a`.
```
import a.b             # 1
a.b                    # 2
```
-/
def dotted : Stmts := stmts [.imp "a.b".toList none 1, use "a" 2]

theorem C75_import_counterexample : collect dotted = [(1, "a.b".toList, 0)] ∧
    meaning dotted = [(1, "a".toList, some 0), (2, "a".toList, some 0)] := by decide +kernel

/-- Decorators, base classes, and some defaults are not visited.
```
d = 1                  # 1
@d                     # 2
def f():               # 3, scope 10
    pass
```
-/
def decorated : Stmts := stmts
  [.bind "d".toList 1, .expr (.skipped (exps [.name "d".toList 2])), .def_ "f".toList 3 10 .nil [] .nil .nil]

theorem C75_skipped_counterexample : (∀ e ∈ collect decorated, e.1 ≠ 2) ∧ (2, "d".toList, some 0) ∈ meaning decorated := by
  decide +kernel

/-- `:=` in a comprehension binds in the scope around it.
```
[y := i for i in z]    # 1, 2, 3, 4; scope 10
print(y)               # 5, 6
```
-/
def walrus : Stmts := stmts
  [.expr (.comp 10 (.cons [("i".toList, 3)] (.name "z".toList 4) .nil .nil) [("y".toList, 1)] (exps [.name "i".toList 2])),
   .expr (.many (exps [.name "print".toList 5, .name "y".toList 6]))]

theorem C75_walrus_counterexample : (1, "y".toList, 10) ∈ collect walrus ∧ (1, "y".toList, some 0) ∈ meaning walrus ∧
    (∀ e ∈ collect walrus, e.1 ≠ 6) ∧ (6, "y".toList, some 0) ∈ meaning walrus := by decide +kernel

end Verif.Scope
