import Verif.Model.LoopExit

/-!
C158: loops that may be left are not reported as infinite.
-/

namespace Verif.LoopExit

/-! ### What is said -/

/-- A node in a tree. -/
inductive Below : Node → Node → Prop where
  | refl (n : Node) : Below n n
  | part {k : Kind} {ps os : List Node} {c n : Node} (hc : c ∈ ps) (h : Below n c) : Below n (.mk k ps os)
  | orelse {k : Kind} {ps os : List Node} {c n : Node} (hc : c ∈ os) (h : Below n c) : Below n (.mk k ps os)

/-- The bodies of these are not executed with what is around them. -/
def Defines (k : Kind) : Prop := k = .funcDef ∨ k = .classDef ∨ k = .lambda

def Loops (k : Kind) : Prop := k = .while_ ∨ k = .for_

/-- Calls that end the program. -/
def Ends : Func → Prop
  | .name x => x = "exit".toList ∨ x = "quit".toList
  | .attr m x => (m = "sys".toList ∧ x = "exit".toList) ∨ (m = "os".toList ∧ x = "_exit".toList)
  | .other => False

/-- What is executed here may leave the loop around: `break` does unless it is in the body of another loop (`inner`), `return`, `raise`, `assert`, `yield` and
calls that end the program do in any case. -/
inductive MayLeave : Bool → Node → Prop where
  | brk {ps os : List Node} : MayLeave false (.mk .brk ps os)
  | ret {i : Bool} {ps os : List Node} : MayLeave i (.mk .ret ps os)
  | raise {i : Bool} {ps os : List Node} : MayLeave i (.mk .raise ps os)
  | assert_ {i : Bool} {ps os : List Node} : MayLeave i (.mk .assert_ ps os)
  | yield_ {i : Bool} {ps os : List Node} : MayLeave i (.mk .yield_ ps os)
  | yieldFrom {i : Bool} {ps os : List Node} : MayLeave i (.mk .yieldFrom ps os)
  | call {i : Bool} {f : Func} {ps os : List Node} (h : Ends f) : MayLeave i (.mk (.call f) ps os)
  /-- of nodes in other nodes that are executed with them -/
  | part {i : Bool} {k : Kind} {ps os : List Node} {c : Node} (hd : ¬ Defines k) (hl : ¬ Loops k) (hc : c ∈ ps ++ os) (h : MayLeave i c) :
      MayLeave i (.mk k ps os)
  /-- the body of another loop -/
  | body {i : Bool} {k : Kind} {ps os : List Node} {c : Node} (hl : Loops k) (hc : c ∈ ps) (h : MayLeave true c) : MayLeave i (.mk k ps os)
  /-- the `else` of another loop -/
  | else_ {i : Bool} {k : Kind} {ps os : List Node} {c : Node} (hl : Loops k) (hc : c ∈ os) (h : MayLeave i c) : MayLeave i (.mk k ps os)

/-- A loop may be left from its body. -/
def Left (ps : List Node) : Prop := ∃ c ∈ ps, MayLeave false c

/-! ### Proofs -/

theorem below_children {n c m : Node} (hc : c ∈ n.children) (h : Below m c) : Below m n := by
  cases n with
  | mk k ps os =>
    rcases List.mem_append.1 hc with hc | hc
    · exact .part hc h
    · exact .orelse hc h

theorem below_cases {n m : Node} (h : Below m n) : m = n ∨ ∃ c ∈ n.children, Below m c := by
  cases h with
  | refl => exact .inl rfl
  | part hc h => exact .inr ⟨_, List.mem_append_left _ hc, h⟩
  | orelse hc h => exact .inr ⟨_, List.mem_append_right _ hc, h⟩

theorem sizes_append : ∀ (a b : List Node), sizes (a ++ b) = sizes a + sizes b
  | [], b => by simp [sizes]
  | n :: a, b => by simp [sizes, sizes_append a b, Nat.add_assoc]

theorem sizes_reverse : ∀ (a : List Node), sizes a.reverse = sizes a
  | [] => rfl
  | n :: a => by simp [sizes, sizes_append, sizes_reverse a, Nat.add_comm]

theorem size_children (n : Node) : n.size = 1 + sizes n.children := by
  cases n with
  | mk k ps os => simp [Node.size, Node.children, sizes_append, Nat.add_assoc]

theorem search_iff (p : Node → Bool) : ∀ (fuel : Nat) (stack : List Node), sizes stack < fuel →
    (search p fuel stack = true ↔ ∃ n ∈ stack, ∃ m, Below m n ∧ p m = true)
  | 0, stack, h => by omega
  | fuel + 1, [], h => by simp [search]
  | fuel + 1, n :: stack, h => by
    simp only [search]
    by_cases hp : p n = true
    · simp only [hp, if_true, true_iff]
      exact ⟨n, List.mem_cons_self .., n, .refl n, hp⟩
    · simp only [hp, if_false, Bool.false_eq_true]
      have hs := size_children n
      rw [search_iff p fuel _ (by simp only [sizes_append, sizes_reverse]; simp only [sizes] at h; omega)]
      constructor
      · rintro ⟨c, hc, m, hm, hpm⟩
        rcases List.mem_append.1 hc with hc | hc
        · exact ⟨n, List.mem_cons_self .., m, below_children (List.mem_reverse.1 hc) hm, hpm⟩
        · exact ⟨c, List.mem_cons_of_mem _ hc, m, hm, hpm⟩
      · rintro ⟨c, hc, m, hm, hpm⟩
        rcases List.mem_cons.1 hc with rfl | hc
        · rcases below_cases hm with rfl | ⟨d, hd, hmd⟩
          · exact absurd hpm hp
          · exact ⟨d, List.mem_append_left _ (List.mem_reverse.2 hd), m, hmd, hpm⟩
        · exact ⟨c, List.mem_append_right _ hc, m, hm, hpm⟩

theorem leave_below {i : Bool} {n : Node} (h : MayLeave i n) : ∃ m, Below m n ∧ (isEnd m || isExitCall m) = true := by
  induction h with
  | brk => exact ⟨_, .refl _, rfl⟩
  | ret => exact ⟨_, .refl _, rfl⟩
  | raise => exact ⟨_, .refl _, rfl⟩
  | assert_ => exact ⟨_, .refl _, rfl⟩
  | yield_ => exact ⟨_, .refl _, rfl⟩
  | yieldFrom => exact ⟨_, .refl _, rfl⟩
  | @call i f ps os h =>
    refine ⟨_, .refl _, ?_⟩
    cases f with
    | name x => simpa [isExitCall, isEnd, Node.kind, Ends] using h
    | attr m x =>
      rcases h with ⟨rfl, rfl⟩ | ⟨rfl, rfl⟩ <;> simp [isExitCall, isEnd, Node.kind]
    | other => exact h.elim
  | part _ _ hc _ ih =>
    obtain ⟨m, hm, hp⟩ := ih
    exact ⟨m, below_children (n := .mk _ _ _) hc hm, hp⟩
  | body _ hc _ ih =>
    obtain ⟨m, hm, hp⟩ := ih
    exact ⟨m, .part hc hm, hp⟩
  | else_ _ hc _ ih =>
    obtain ⟨m, hm, hp⟩ := ih
    exact ⟨m, .orelse hc hm, hp⟩

/-! ### The property -/

/-- **C158**: the search ends and finds a node just if there is one. -/
theorem C158_search (n : Node) (p : Node → Bool) : conditionMet n p = true ↔ ∃ m, Below m n ∧ p m = true := by
  unfold conditionMet
  rw [search_iff p _ _ (by simp [sizes])]
  simp

/-- **C158**: a loop that may be left is not looked at. -/
theorem C158_left {k : Kind} {ps os : List Node} {parents : List Kind} (h : Left ps) : lookedAt (.mk k ps os) parents = false := by
  obtain ⟨c, hc, hl⟩ := h
  obtain ⟨m, hm, hp⟩ := leave_below hl
  have : contains (.mk k ps os) = true := (C158_search _ _).2 ⟨m, .part hc hm, hp⟩
  simp [lookedAt, this]

/-- **C158**: nor is one in a `try`. -/
theorem C158_try {loop : Node} {parents : List Kind} (h : .try_ ∈ parents ∨ .tryStar ∈ parents) : lookedAt loop parents = false := by
  have : isInTry parents = true := by
    induction parents with
    | nil => simp at h
    | cons k parents ih =>
      unfold isInTry
      by_cases hk : k = .try_ ∨ k = .tryStar
      · simp [hk]
      · simp only [hk, if_false]
        apply ih
        rw [not_or] at hk
        rcases h with h | h
        · exact .inl ((List.mem_cons.1 h).resolve_left (Ne.symm hk.1))
        · exact .inr ((List.mem_cons.1 h).resolve_left (Ne.symm hk.2))
  simp [lookedAt, this]

/-- **C158**: nothing is reported for a loop that may be left or that is in a `try`. -/
theorem C158_message {k : Kind} {ps os : List Node} {parents : List Kind} {found : Option Str} (h : Left ps ∨ .try_ ∈ parents ∨ .tryStar ∈ parents) :
    checkInfiniteLoop (.mk k ps os) parents found = none := by
  unfold checkInfiniteLoop
  rcases h with h | h
  · simp [C158_left h]
  · simp [C158_try h]

/-- No `continue`, no loops or definitions, no `os.exit` or `sys._exit`. -/
def Straight (n : Node) : Prop := ∀ m, Below m n → m.kind ≠ .cont ∧ ¬ Defines m.kind ∧ ¬ Loops m.kind ∧ (∀ f, m.kind = .call f → isExitCall m = true → Ends f)

theorem straight_leave {n m : Node} (hm : Below m n) : Straight n → (isEnd m || isExitCall m) = true → MayLeave false n := by
  induction hm with
  | refl n =>
    intro hs hp
    cases n with
    | mk k ps os =>
      obtain ⟨h1, -, -, h4⟩ := hs _ (.refl _)
      rcases Bool.or_eq_true _ _ ▸ hp with hp | hp
      · cases k with
        | brk => exact .brk
        | cont => exact absurd rfl h1
        | ret => exact .ret
        | raise => exact .raise
        | assert_ => exact .assert_
        | yield_ => exact .yield_
        | yieldFrom => exact .yieldFrom
        | _ => exact nomatch hp
      · cases k with
        | call f => exact .call (h4 f rfl hp)
        | _ => exact nomatch hp
  | part hc h ih =>
    intro hs hp
    obtain ⟨-, h2, h3, -⟩ := hs _ (.refl _)
    exact .part h2 h3 (List.mem_append_left _ hc) (ih (fun x hx => hs x (.part hc hx)) hp)
  | orelse hc h ih =>
    intro hs hp
    obtain ⟨-, h2, h3, -⟩ := hs _ (.refl _)
    exact .part h2 h3 (List.mem_append_right _ hc) (ih (fun x hx => hs x (.orelse hc hx)) hp)

/-- **C158**: all other loops are looked at. Missing: those with `continue`, with loops or definitions in them or with an `else`, with calls of `os.exit` and
`sys._exit`, which Python does not have, and those that are in a `try` without being in its body. -/
theorem C158_others_partial {k : Kind} {ps : List Node} {parents : List Kind} (hk : Loops k) (ht : .try_ ∉ parents ∧ .tryStar ∉ parents) (hs : ∀ c ∈ ps, Straight c)
    (h : ¬ Left ps) : lookedAt (.mk k ps []) parents = true := by
  have h1 : isInTry parents = false := by
    induction parents with
    | nil => rfl
    | cons k parents ih =>
      simp only [List.mem_cons, not_or] at ht
      unfold isInTry
      rw [if_neg (by rw [not_or]; exact ⟨fun e => ht.1.1 e.symm, fun e => ht.2.1 e.symm⟩)]
      exact ih ⟨ht.1.2, ht.2.2⟩
  have h2 : contains (.mk k ps []) = false := by
    cases hc : contains (.mk k ps []) with
    | false => rfl
    | true =>
      obtain ⟨m, hm, hp⟩ := (C158_search _ _).1 hc
      cases hm with
      | refl => rcases hk with rfl | rfl <;> exact nomatch hp
      | part hc hm => exact absurd ⟨_, hc, straight_leave hm (hs _ hc) hp⟩ h
      | orelse hc _ => exact nomatch hc
  simp [lookedAt, h1, h2]

/-! ### Examples -/

def leaf (k : Kind) : Node := .mk k [] []

/-- `while c: (if c: break)` -/
example : lookedAt (.mk .while_ [leaf .other, .mk .other [leaf .other, leaf .brk] []] []) [] = false :=
  C158_left ⟨_, List.mem_cons_of_mem _ (List.mem_cons_self ..), .part (by simp [Defines]) (by simp [Loops]) (List.mem_cons_of_mem _ (List.mem_cons_self ..)) .brk⟩

/-- `while c: (for x in y: (return))` -/
example : lookedAt (.mk .while_ [leaf .other, .mk .for_ [leaf .ret] []] []) [] = false :=
  C158_left ⟨_, List.mem_cons_of_mem _ (List.mem_cons_self ..), .body (.inr rfl) (List.mem_cons_self ..) .ret⟩

/-- `while c: f()` -/
example : lookedAt (.mk .while_ [leaf .other, leaf (.call (.name "f".toList))] []) [] = true := by decide +kernel

example : lookedAt (.mk .while_ [leaf .other, leaf (.call (.name "f".toList))] []) [.other, .try_] = false := C158_try (.inl (by simp))

/-- `while c: f()` is looked at, as it cannot be left. -/
example : checkInfiniteLoop (.mk .while_ [leaf .other, leaf (.call (.name "f".toList))] []) [.other] (some "explicit-infinite-loop".toList) =
    some "explicit-infinite-loop".toList := by
  have hb : ∀ c ∈ [leaf .other, leaf (.call (.name "f".toList))], ∀ m, Below m c → m = leaf .other ∨ m = leaf (.call (.name "f".toList)) := by
    intro c hc m hm
    simp only [List.mem_cons, List.not_mem_nil, or_false] at hc
    rcases below_cases hm with rfl | ⟨d, hd, -⟩
    · exact hc
    · rcases hc with rfl | rfl <;> exact nomatch hd
  unfold checkInfiniteLoop
  rw [C158_others_partial (.inl rfl) (by simp) ?_ ?_]
  · rfl
  · intro c hc m hm
    rcases hb c hc m hm with rfl | rfl
    · simp [leaf, Node.kind, Defines, Loops]
    · refine ⟨by simp [leaf, Node.kind], by simp [leaf, Node.kind, Defines], by simp [leaf, Node.kind, Loops], fun f _ he => ?_⟩
      exact absurd he (by decide +kernel)
  · rintro ⟨c, hc, hl⟩
    obtain ⟨m, hm, hp⟩ := leave_below hl
    rcases hb c hc m hm with rfl | rfl
    · exact nomatch hp
    · exact absurd hp (by decide +kernel)

/-! ### What is false -/

theorem not_left_of {ps : List Node} (h : ∀ c ∈ ps, ¬ MayLeave false c) : ¬ Left ps := fun ⟨c, hc, hl⟩ => h c hc hl

/-- A node without children that is none of the above. -/
theorem leaf_not {i : Bool} {k : Kind} (h : isEnd (leaf k) = false) (he : isExitCall (leaf k) = false) : ¬ MayLeave i (leaf k) := by
  intro hl
  obtain ⟨m, hm, hp⟩ := leave_below hl
  rcases below_cases hm with rfl | ⟨c, hc, -⟩
  · rw [h, he] at hp
    exact nomatch hp
  · exact nomatch hc

/-- **C158** is false: a loop with `continue` is not looked at, although this does not leave it: `while c: continue`. -/
theorem C158_continue_counterexample :
    let body := [leaf .other, leaf .cont]
    ¬ Left body ∧ lookedAt (.mk .while_ body []) [] = false := by
  refine ⟨not_left_of ?_, by decide +kernel⟩
  intro c hc
  simp only [List.mem_cons, List.not_mem_nil, or_false] at hc
  rcases hc with rfl | rfl
  · exact leaf_not rfl rfl
  · intro h
    cases h with
    | part _ _ hc _ => exact nomatch hc
    | body hl _ _ => rcases hl with hl | hl <;> exact nomatch hl
    | else_ hl _ _ => rcases hl with hl | hl <;> exact nomatch hl

/-- **C158** is false: so is one with `break` in another loop, and with `return` in a function: `while c: (for x in y: break)`, `while c: (def f(): return)`. -/
theorem C158_inner_counterexample :
    let loop := [leaf .other, .mk .for_ [leaf .other, leaf .brk] []]
    let function := [leaf .other, .mk .funcDef [leaf .ret] []]
    ¬ Left loop ∧ ¬ Left function ∧ lookedAt (.mk .while_ loop []) [] = false ∧ lookedAt (.mk .while_ function []) [] = false := by
  refine ⟨not_left_of ?_, not_left_of ?_, by decide +kernel, by decide +kernel⟩
  · intro c hc
    simp only [List.mem_cons, List.not_mem_nil, or_false] at hc
    rcases hc with rfl | rfl
    · exact leaf_not rfl rfl
    · intro h
      cases h with
      | part _ hl _ _ => exact hl (.inr rfl)
      | body _ hc h =>
        simp only [List.mem_cons, List.not_mem_nil, or_false] at hc
        rcases hc with rfl | rfl
        · exact leaf_not rfl rfl h
        · cases h with
          | part _ _ hc _ => exact nomatch hc
          | body hl _ _ => rcases hl with hl | hl <;> exact nomatch hl
          | else_ hl _ _ => rcases hl with hl | hl <;> exact nomatch hl
      | else_ _ hc _ => exact nomatch hc
  · intro c hc
    simp only [List.mem_cons, List.not_mem_nil, or_false] at hc
    rcases hc with rfl | rfl
    · exact leaf_not rfl rfl
    · intro h
      cases h with
      | part hd _ _ _ => exact hd (.inl rfl)
      | body hl _ _ => rcases hl with hl | hl <;> exact nomatch hl
      | else_ hl _ _ => rcases hl with hl | hl <;> exact nomatch hl

/-- **C158** is false: so is one with `return` in its `else`: `while c: pass`, `else: return`. -/
theorem C158_else_counterexample : ¬ Left [leaf .other] ∧ lookedAt (.mk .while_ [leaf .other] [leaf .ret]) [] = false := by
  refine ⟨not_left_of ?_, by decide +kernel⟩
  intro c hc
  rw [List.mem_singleton.1 hc]
  exact leaf_not rfl rfl

/-- **C158** is false: a loop in a function that is defined in a `try`, or in its `else`, is not looked at; exceptions in it are not caught there. -/
theorem C158_try_counterexample : lookedAt (.mk .while_ [leaf .other] []) [.funcDef, .try_] = false := by decide +kernel

/-- **C158** is false: a call that ends the program by another name is not noticed, `from sys import exit as end` with `while True: end()`,
`import sys as s` with `while True: s.exit()`, and `import os` with `while True: os.abort()`. -/
theorem C158_names_counterexample : ∀ f ∈ [Func.name "end".toList, .attr "s".toList "exit".toList, .attr "os".toList "abort".toList],
    lookedAt (.mk .while_ [leaf .other, leaf (.call f)] []) [] = true := by decide +kernel

end Verif.LoopExit
