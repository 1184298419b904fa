import Verif.Model.RaiseTo

/-!
C167: a `raise` in the body of a `try` is linked to the clause that handles it.

The language reference ("The try statement"): the clauses are inspected in turn; a clause without an expression matches any exception; one with an expression matches
if the class of the exception is, or is derived from, the class or one of the classes in the tuple that the expression evaluates to.
-/

namespace Verif.Flow

/-- What expressions evaluate to: classes, instances, tuples of other values -/
inductive Obj (C : Type) where
  | cls (c : C)
  | inst (c : C)
  | tuple (os : List (Obj C))
  | other

/-- What the names in a program stand for, and which classes are derived from which -/
structure Meaning (C : Type) where
  name : Str → Obj C
  attr : Obj C → Str → Obj C
  call : Obj C → List (Obj C) → Obj C
  sub : C → C → Bool

variable {C : Type}

mutual
/-- The value of an expression -/
def Meaning.eval (W : Meaning C) : Exc → Obj C
  | .name x => W.name x
  | .attr e a => W.attr (W.eval e) a
  | .call f args => W.call (W.eval f) (W.evalAll args)
  | .tuple es => .tuple (W.evalAll es)
  | .const => .other

@[inherit_doc Meaning.eval]
def Meaning.evalAll (W : Meaning C) : List Exc → List (Obj C)
  | [] => []
  | e :: es => W.eval e :: W.evalAll es
end

/-- The class of the exception that `raise` with a value raises -/
def Obj.raised : Obj C → Option C
  | .cls c => some c
  | .inst c => some c
  | _ => none

/-- Whether a clause with a value matches exceptions of a class. -/
def Meaning.matchesClass (W : Meaning C) (c : C) : Obj C → Bool
  | .cls d => W.sub c d
  | .tuple os => os.any (fun o => match o with | .cls d => W.sub c d | _ => false)
  | _ => false

/-- The block that is executed when an exception of the class is raised in the body: that of the first clause that matches, or what is after the `try`. -/
def Meaning.handler (W : Meaning C) (c : C) (after : Nat) : List (Option Exc × Nat) → Nat
  | [] => after
  | (none, h) :: _ => h
  | (some e, h) :: rest => if W.matchesClass c (W.eval e) then h else W.handler c after rest

/-- The claim: whatever is raised is linked to what is executed. -/
def RaisesWhereHandled (W : Meaning C) (clauses : List (Option Exc × Nat)) (after : Nat) (raised : Exc) : Prop :=
  ∀ outer c, (W.eval raised).raised = some c → raiseTo clauses after outer (some raised) = some (W.handler c after clauses)

/-! ### Where jumps lead -/

theorem jumpTo_hit (x : Str) (h : Nat) (ns : List Str) (hx : x ∈ ns) (rest : List Exits) :
    jumpTo (.raise (some x)) (ns.map (fun n => [(Jump.raise (some n), h)]) ++ rest) = some h := by
  induction ns with
  | nil => cases hx
  | cons n ns ih =>
    by_cases e : n = x
    · subst e
      simp [jumpTo, Exits.get]
    · have : x ∈ ns := by
        rcases List.mem_cons.1 hx with h | h
        · exact absurd h.symm e
        · exact h
      have e1 : (Jump.raise (some n) == Jump.raise (some x)) = false := by simp [e]
      have e2 : (Jump.raise (some n) == Jump.raise none) = false := by simp
      simp only [List.map_cons, List.cons_append, jumpTo, Exits.get, Jump.kind, List.find?_cons, e1, e2, List.find?_nil, Option.map_none]
      exact ih this

theorem jumpTo_miss (x : Option Str) (h : Nat) (ns : List Str) (hx : ∀ n ∈ ns, x ≠ some n) (rest : List Exits) :
    jumpTo (.raise x) (ns.map (fun n => [(Jump.raise (some n), h)]) ++ rest) = jumpTo (.raise x) rest := by
  induction ns with
  | nil => rfl
  | cons n ns ih =>
    have e1 : (Jump.raise (some n) == Jump.raise x) = false := by
      have := hx n List.mem_cons_self
      simp [Ne.symm this]
    have e2 : (Jump.raise (some n) == Jump.raise none) = false := by simp
    simp only [List.map_cons, List.cons_append, jumpTo, Exits.get, Jump.kind, List.find?_cons, e1, e2, List.find?_nil, Option.map_none]
    exact ih (fun m hm => hx m (List.mem_cons_of_mem _ hm))

theorem jumpTo_all (x : Option Str) (h : Nat) (rest : List Exits) : jumpTo (.raise x) ([(Jump.raise none, h)] :: rest) = some h := by
  cases x <;> simp [jumpTo, Exits.get, Jump.kind]

/-- Where a raise leads: to the first clause that has the name or has no names -/
theorem jumpTo_tryExits (x : Option Str) (after : Nat) (outer : List Exits) (clauses : List (Option Exc × Nat)) :
    jumpTo (.raise x) (tryExits clauses after ++ outer) =
      some (((clauses.find? (fun c => (extractExceptions c.1).isEmpty || (extractExceptions c.1).any (fun n => x == some n))).map (·.2)).getD after) := by
  induction clauses with
  | nil => simp [tryExits, jumpTo_all]
  | cons c cs ih =>
    have e : tryExits (c :: cs) after ++ outer = clauseExits (extractExceptions c.1) c.2 ++ (tryExits cs after ++ outer) := by
      simp [tryExits]
    rw [e, List.find?_cons]
    cases hn : extractExceptions c.1 with
    | nil => simp [clauseExits, jumpTo_all]
    | cons n ns =>
      have e' : clauseExits (n :: ns) c.2 = (n :: ns).reverse.map (fun n => [(Jump.raise (some n), c.2)]) := by
        simp [clauseExits]
      rw [e']
      by_cases hx : ∃ m ∈ n :: ns, x = some m
      · obtain ⟨m, hm, rfl⟩ := hx
        have : ((n :: ns).any (fun k => some m == some k)) = true := List.any_eq_true.2 ⟨m, hm, by simp⟩
        rw [jumpTo_hit m c.2 _ (List.mem_reverse.2 hm), this]
        simp
      · have hx' : ∀ m ∈ n :: ns, x ≠ some m := fun m hm h => hx ⟨m, hm, h⟩
        have : ((n :: ns).any (fun k => x == some k)) = false := by
          rw [List.any_eq_false]
          intro k hk
          simp [hx' k hk]
        rw [jumpTo_miss x c.2 _ (fun m hm => hx' m (List.mem_reverse.1 hm)), this, ih]
        rfl

/-! ### The property -/

/-- A clause whose expression is a name or a tuple of at least one name -/
def NamedClause (e : Exc) (names : List Str) : Prop :=
  (∃ x, e = .name x ∧ names = [x]) ∨ (e = .tuple (names.map .name) ∧ names ≠ [])

theorem namesAll_names (ns : List Str) : namesAll (ns.map .name) = ns := by
  induction ns with
  | nil => rfl
  | cons n ns ih => simp [namesAll, Exc.names, ih]

theorem evalAll_names (W : Meaning C) (ns : List Str) : W.evalAll (ns.map .name) = ns.map W.name := by
  induction ns with
  | nil => rfl
  | cons n ns ih => simp [Meaning.evalAll, Meaning.eval, ih]

theorem NamedClause.extract {e : Exc} {ns : List Str} (h : NamedClause e ns) : e.names = ns := by
  rcases h with ⟨x, rfl, rfl⟩ | ⟨rfl, _⟩
  · rfl
  · exact namesAll_names ns

theorem NamedClause.ne_nil {e : Exc} {ns : List Str} (h : NamedClause e ns) : ns ≠ [] := by
  rcases h with ⟨x, rfl, rfl⟩ | ⟨_, h⟩
  · simp
  · exact h

theorem NamedClause.matches {e : Exc} {ns : List Str} (h : NamedClause e ns) (W : Meaning C) (c : C) (x : Str)
    (hc : ∀ y ∈ ns, ∃ d, W.name y = .cls d ∧ (W.sub c d = true ↔ x = y)) :
    W.matchesClass c (W.eval e) = ns.any (fun n => some x == some n) := by
  have key : ∀ y ∈ ns, (match W.name y with | .cls d => W.sub c d | _ => false) = (some x == some y) := by
    intro y hy
    obtain ⟨d, hd, hs⟩ := hc y hy
    rw [hd, Bool.eq_iff_iff]
    simpa using hs
  rcases h with ⟨y, rfl, rfl⟩ | ⟨rfl, -⟩
  · have := key y List.mem_cons_self
    obtain ⟨d, hd, _⟩ := hc y List.mem_cons_self
    rw [hd] at this
    simp only [Meaning.eval, hd, Meaning.matchesClass, List.any_cons, List.any_nil, Bool.or_false]
    exact this
  · simp only [Meaning.eval, evalAll_names, Meaning.matchesClass, List.any_map]
    clear hc
    induction ns with
    | nil => rfl
    | cons n ns ih =>
      simp only [List.any_cons]
      rw [← key n List.mem_cons_self, ← ih (fun y hy => key y (List.mem_cons_of_mem _ hy))]
      rfl

/-- **C167** (partial: the class is raised by its name, with or without arguments; the clauses have names or tuples of names, and no class in them is a proper base of
the class that is raised or another name of it). The raise is linked to the block that is executed. -/
theorem C167_partial (W : Meaning C) (clauses : List (Option Exc × Nat)) (after : Nat) (raised : Exc) (x : Str) (c : C)
    (hx : W.name x = .cls c) (hr : raised = .name x ∨ ∃ args, raised = .call (.name x) args)
    (hi : ∀ args, W.call (.cls c) args = .inst c)
    (hc : ∀ e h, (some e, h) ∈ clauses → ∃ ns, NamedClause e ns ∧ ∀ y ∈ ns, ∃ d, W.name y = .cls d ∧ (W.sub c d = true ↔ x = y)) :
    RaisesWhereHandled W clauses after raised := by
  intro outer c' hc'
  have e1 : raiseExc (some raised) = some x := by
    rcases hr with rfl | ⟨args, rfl⟩ <;> simp [raiseExc, Exc.names]
  have e2 : c' = c := by
    rcases hr with rfl | ⟨args, rfl⟩
    · simp only [Meaning.eval, hx, Obj.raised, Option.some.injEq] at hc'
      exact hc'.symm
    · simp only [Meaning.eval, hx, hi, Obj.raised, Option.some.injEq] at hc'
      exact hc'.symm
  subst e2
  unfold raiseTo
  rw [e1, jumpTo_tryExits]
  congr 1
  clear hc'
  induction clauses with
  | nil => rfl
  | cons cl cs ih =>
    have ih := ih (fun e h hm => hc e h (List.mem_cons_of_mem _ hm))
    obtain ⟨e, h⟩ := cl
    cases e with
    | none => simp [extractExceptions, Meaning.handler]
    | some e =>
      obtain ⟨ns, hns, hd⟩ := hc e h List.mem_cons_self
      have hne : ns.isEmpty = false := by
        cases ns with
        | nil => exact absurd rfl hns.ne_nil
        | cons _ _ => rfl
      simp only [List.find?_cons, extractExceptions, hns.extract, hne, Bool.false_or, Meaning.handler, hns.matches W c' x hd]
      cases ns.any (fun n => some x == some n) with
      | true => rfl
      | false => exact ih

/-- A `raise` without an expression leads to the first clause without names, whatever is being handled. -/
theorem C167_bare (clauses : List (Option Exc × Nat)) (after : Nat) (outer : List Exits)
    (hc : ∀ e h, (some e, h) ∈ clauses → e.names ≠ []) :
    raiseTo clauses after outer none = some (((clauses.find? (fun c => c.1.isNone)).map (·.2)).getD after) := by
  unfold raiseTo
  rw [raiseExc, jumpTo_tryExits]
  congr 3
  induction clauses with
  | nil => rfl
  | cons cl cs ih =>
    have ih := ih (fun e h hm => hc e h (List.mem_cons_of_mem _ hm))
    obtain ⟨e, h⟩ := cl
    cases e with
    | none => simp [extractExceptions]
    | some e =>
      have := hc e h List.mem_cons_self
      have h1 : e.names.isEmpty = false := by
        cases hn : e.names with
        | nil => exact absurd hn this
        | cons _ _ => rfl
      have h2 : (e.names.any (fun n => (none : Option Str) == some n)) = false := by
        rw [List.any_eq_false]; intro k _; simp
      simp only [List.find?_cons, extractExceptions, h1, h2, Option.isNone_some, Bool.or_self]
      exact ih

/-- No `raise` in the body passes the `try`: it is linked to a clause or to what is after. -/
theorem C167_inside (clauses : List (Option Exc × Nat)) (after : Nat) (outer : List Exits) (raised : Option Exc) :
    ∃ t, raiseTo clauses after outer raised = some t ∧ (t = after ∨ ∃ e, (e, t) ∈ clauses) := by
  unfold raiseTo
  rw [jumpTo_tryExits]
  refine ⟨_, rfl, ?_⟩
  cases hf : clauses.find? (fun c => (extractExceptions c.1).isEmpty || (extractExceptions c.1).any (fun n => raiseExc raised == some n)) with
  | none => exact .inl rfl
  | some c => exact .inr ⟨c.1, List.mem_of_find?_eq_some hf⟩

/-! ### The boundaries of the graph -/

/-- The clauses of a `try` have these expressions. -/
def Handlers.Typed : Handlers → List (Option Exc) → Prop
  | .nil, es => es = []
  | .cons exceptions _ _ rest, es => ∃ e es', es = e :: es' ∧ exceptions = extractExceptions e ∧ rest.Typed es'

/-- The body of a `try` is visited with these boundaries; the second component are the blocks of the clauses, from the last to the first. -/
theorem C167_boundaries (hs : Handlers) (es : List (Option Exc)) (ht : hs.Typed es) (k after : Nat) (outer : List Exits) (g : Graph) :
    (visitHandlers hs k ([(.raise none, after)] :: outer) g).2.2 =
      tryExits (es.zip (visitHandlers hs k ([(.raise none, after)] :: outer) g).2.1.reverse) after ++ outer := by
  induction es generalizing hs with
  | nil =>
    cases hs with
    | nil => simp [visitHandlers, tryExits]
    | cons _ _ _ _ => obtain ⟨e, es', h, _⟩ := ht; exact nomatch h
  | cons e es ih =>
    cases hs with
    | nil => exact nomatch ht
    | cons exceptions name body rest =>
      obtain ⟨e', es', h, hx, hr⟩ := ht
      cases h
      have := ih rest hr
      simp only [visitHandlers, List.reverse_append, List.reverse_cons, List.reverse_nil, List.nil_append, List.cons_append, List.zip_cons_cons]
      rw [this, hx]
      simp [tryExits]

/-! ### Examples and counterexamples

The classes are `0` (`L`, for `LookupError`), `1` (`K`, for `KeyError`, derived from it), `2` (`V`, for `ValueError`), `3` (`m.A`) and `4` (`m.B`); `e` is an instance of
`2`. -/

/-- The names -/
def sampleMeaning : Meaning Nat where
  name x :=
    if x = ['L'] then .cls 0
    else if x = ['K'] then .cls 1
    else if x = ['V'] then .cls 2
    else if x = ['e'] then .inst 2
    else .other
  attr _ a := if a = ['A'] then .cls 3 else .cls 4
  call f _ := match f with | .cls c => .inst c | _ => .other
  sub c d := c == d || (c == 1 && d == 0)

example : raiseTo [(some (.name ['K']), 5), (some (.tuple [.name ['L'], .name ['V']]), 6), (none, 7)] 8 []
    (some (.call (.name ['V']) [.const])) = some 6 := by decide +kernel

example : RaisesWhereHandled sampleMeaning
    [(some (.name ['K']), 5), (some (.tuple [.name ['L'], .name ['V']]), 6), (none, 7)] 8
    (.call (.name ['V']) [.const]) := by
  refine C167_partial _ _ _ _ ['V'] 2 (by simp [sampleMeaning]) (.inr ⟨_, rfl⟩) (fun _ => rfl) ?_
  intro e h hm
  simp only [List.mem_cons, Prod.mk.injEq, Option.some.injEq, reduceCtorEq, false_and, List.not_mem_nil, or_false] at hm
  rcases hm with ⟨rfl, rfl⟩ | ⟨rfl, rfl⟩
  · refine ⟨[['K']], .inl ⟨_, rfl, rfl⟩, ?_⟩
    intro y hy
    rw [List.mem_singleton] at hy
    subst hy
    exact ⟨1, by simp [sampleMeaning], by decide +kernel⟩
  · refine ⟨[['L'], ['V']], .inr ⟨rfl, by simp⟩, ?_⟩
    intro y hy
    rcases List.mem_cons.1 hy with rfl | hy
    · exact ⟨0, by simp [sampleMeaning], by decide +kernel⟩
    · rw [List.mem_singleton] at hy
      subst hy
      exact ⟨2, by simp [sampleMeaning], by decide +kernel⟩

example : raiseTo [(some (.name ['K']), 5), (none, 7)] 8 [] none = some 7 := by decide +kernel

example : (Handlers.cons [['K']] none .nil (.cons [] none .nil .nil)).Typed [some (.name ['K']), none] :=
  ⟨_, _, rfl, rfl, _, _, rfl, rfl, rfl⟩

example : (visitHandlers (.cons [['K']] none .nil (.cons [] none .nil .nil)) 2 [[(.raise none, 4)]] Graph.init.new3).2 =
    ([5, 6], [[(.raise (some ['K']), 6)], [(.raise none, 5)], [(.raise none, 4)]]) := by decide +kernel

/-- `raise K` is not linked to `except L`, which handles it. -/
theorem C167_base_counterexample :
    ¬ RaisesWhereHandled sampleMeaning [(some (.name ['L']), 5)] 8 (.name ['K']) := by
  intro h
  have h1 := h [] 1 (by decide +kernel)
  revert h1
  decide +kernel

/-- `raise m.B` is linked to `except m.A`, which does not handle it. -/
theorem C167_attribute_counterexample :
    ¬ RaisesWhereHandled sampleMeaning [(some (.attr (.name ['m']) ['A']), 5)] 8 (.attr (.name ['m']) ['B']) := by
  intro h
  have h1 := h [] 4 (by decide +kernel)
  revert h1
  decide +kernel

/-- `raise e` is not linked to the clause of the class of `e`. -/
theorem C167_variable_counterexample :
    ¬ RaisesWhereHandled sampleMeaning [(some (.name ['V']), 5)] 8 (.name ['e']) := by
  intro h
  have h1 := h [] 2 (by decide +kernel)
  revert h1
  decide +kernel

/-- Every raise is linked to `except ():`, which handles nothing. -/
theorem C167_empty_counterexample :
    ¬ RaisesWhereHandled sampleMeaning [(some (.tuple []), 5)] 8 (.name ['V']) := by
  intro h
  have h1 := h [] 2 (by decide +kernel)
  revert h1
  decide +kernel

end Verif.Flow
