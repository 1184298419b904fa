import Verif.Lemmas.FlowUse

/-!
C70: executions are paths of the control flow graph. C71: paths of the control flow graph are executions. C72: each location
is in one block. C73: loops with one iteration. Also C29, for the graphs that are built.
-/

namespace Verif.Flow

/-! ### Programs to try things on -/

/-- Statements in turn -/
def seq : List Stmt → Body
  | [] => .nil
  | s :: rest => .cons s (seq rest)

/-- `except E:` -/
def exceptE (body : List Stmt) : Handlers := .cons ["E".toList] none (seq body) .nil

/-- Nothing raises exceptions, and a `for` that ends does not assign its target. -/
def quiet : World := ⟨fun _ _ => False, fun ns e => e ∈ ns, false⟩

/-- The location 0 may raise `E`. -/
def raising : World := ⟨fun l e => l = 0 ∧ e = "E".toList, fun ns e => e ∈ ns, true⟩

/-! ### C70 -/

/-- **C70**, for modules: what is executed lies on a path from the beginning of the graph, and an execution that reaches the
end of the program is a path to the end of the graph. Missing: `try` with `finally`, with an `else` that begins with
`while`, or whose body raises exceptions; and `for` that stops without its target being assigned (with `asks`, the target
stands for asking for the next element). These are false, see below. -/
theorem C70_module_partial (W : World) (p : Body) (hm : p.mild = true) (hf : W.asks = true ∨ p.noFor = true)
    (ht : p.noTry = true ∨ ∀ l x, ¬ W.raises l x) (tr : List Nat) (o : Out) (hr : RunBody W p tr o) :
    ∃ path, (moduleGraph p).IsPath path ∧ tr <+: (moduleGraph p).along path ∧
      (o = .normal → path.getLast? = some Graph.end_ ∧ (moduleGraph p).along path = tr) := by
  obtain ⟨ψ, g⟩ := module_good W p
  obtain ⟨path, h1, h2, h3⟩ := end_sound g ⟨hm, hf, ht⟩ rfl (by show 1 < 2; omega) (by show 1 ≠ 0; omega) rfl rfl hr
  exact ⟨path, h1, h2, fun h => h3 (.inl h)⟩

/-- **C70**, for functions: the arguments come first; an execution that returns is a path to the end of the graph, too. -/
theorem C70_function_partial (W : World) (args : Nat) (p : Body) (hm : p.mild = true) (hf : W.asks = true ∨ p.noFor = true)
    (ht : p.noTry = true ∨ ∀ l x, ¬ W.raises l x) (tr : List Nat) (o : Out) (hr : RunBody W p tr o) :
    ∃ path, (functionGraph args p).IsPath path ∧ args :: tr <+: (functionGraph args p).along path ∧
      (o = .normal ∨ o = .ret → path.getLast? = some Graph.end_ ∧ (functionGraph args p).along path = args :: tr) := by
  obtain ⟨ψ, g, hs, hl⟩ := function_good W args p
  have hr' : Seq (Leaf W args) (Seq Skip (RunBody W p)) (args :: tr) o := .both (t1 := [args]) .ok (.both (t1 := []) .ok hr)
  obtain ⟨path, h1, h2, h3⟩ := end_sound g ⟨hm, hf, ht⟩ rfl (by show 1 < 2; omega) (by show 1 ≠ 0; omega) rfl rfl hr'
  exact ⟨path, h1, h2, fun h => h3 (h.imp id (fun h => ⟨h, rfl⟩))⟩

/-- **C70**, programs without `try`: nothing is missing but what is said about `for`. -/
theorem C70_noTry_partial (W : World) (p : Body) (hp : p.noTry = true) (hf : W.asks = true ∨ p.noFor = true) (tr : List Nat)
    (o : Out) (hr : RunBody W p tr o) :
    ∃ path, (moduleGraph p).IsPath path ∧ tr <+: (moduleGraph p).along path ∧
      (o = .normal → path.getLast? = some Graph.end_ ∧ (moduleGraph p).along path = tr) :=
  C70_module_partial W p (body_mild p hp) hf (.inl hp) tr o hr

/-- **C70** does not hold as it is: `x = 1`, `for x in []: pass`, `print(x)`. The path to `print(x)` leads by the target of
the loop, which is never assigned. -/
theorem C70_for_counterexample :
    let p := seq [.simple 0, .each 1 2 (seq [.simple 3]) .nil, .simple 4]
    RunBody quiet p [0, 1, 4] .normal ∧
      ∀ path, (moduleGraph p).IsPath path → ¬ [0, 1, 4] <+: (moduleGraph p).along path := by
  refine ⟨?_, no_path (module_sane _) (by decide +kernel)⟩
  refine .both (t1 := [0]) .ok (.both (t1 := [1]) (.both (t1 := [1]) (t2 := []) .ok ?_) (.both (t1 := [4]) (t2 := []) .ok .ok))
  exact .done (.both (t1 := []) (t2 := []) .ok .ok)

/-- What is in `finally` lies on no path: `try: a`, `finally: b`. -/
theorem C70_finally_counterexample :
    let p := seq [.try_ (.simple 0) .nil .nil .nil (seq [.simple 1])]
    RunBody quiet p [0, 1] .normal ∧
      ∀ path, (moduleGraph p).IsPath path → ¬ [0, 1] <+: (moduleGraph p).along path := by
  refine ⟨?_, no_path (module_sane _) (by decide +kernel)⟩
  refine .both (t1 := [0, 1]) (t2 := []) (.both (t1 := [0]) (t2 := [1]) ?_ (by decide) (.both (t1 := [1]) (t2 := []) .ok .ok)) .ok
  exact .good (t1 := [0]) (t2 := []) (.both (t1 := [0]) (t2 := []) .ok .ok) .ok

/-- A clause is entered only after the whole block: `try: a; b`, `except E: c`, where `a` raises `E`. -/
theorem C70_raises_counterexample :
    let p := seq [.try_ (.simple 0) (seq [.simple 1]) (exceptE [.simple 2]) .nil .nil]
    RunBody raising p [0, 2] .normal ∧
      ∀ path, (moduleGraph p).IsPath path → ¬ [0, 2] <+: (moduleGraph p).along path := by
  refine ⟨?_, no_path (module_sane _) (by decide +kernel)⟩
  refine .both (t1 := [0, 2]) (t2 := []) (.both (t1 := [0, 2]) (t2 := []) ?_ (by decide) .ok) .ok
  refine .caught (t1 := [0]) (t2 := [2]) (e := "E".toList) (.first (.raise ⟨rfl, rfl⟩) (by decide)) (.inl ⟨.inr List.mem_cons_self, ?_⟩)
  exact .both (t1 := []) .ok (.both (t1 := [2]) (t2 := []) .ok .ok)

/-- A clause that names another class than `raise` does is not entered: `try: raise K`, `except E: c`, where `E` is a base
class of `K`. -/
theorem C70_base_class_counterexample :
    let p := seq [.try_ (.jump (.raise (some "K".toList)) 0) .nil (exceptE [.simple 1]) .nil .nil]
    RunBody ⟨fun _ _ => False, fun _ _ => True, true⟩ p [0, 1] .normal ∧
      ∀ path, (moduleGraph p).IsPath path → ¬ [0, 1] <+: (moduleGraph p).along path := by
  refine ⟨?_, no_path (module_sane _) (by decide +kernel)⟩
  refine .both (t1 := [0, 1]) (t2 := []) (.both (t1 := [0, 1]) (t2 := []) ?_ (by decide) .ok) .ok
  refine .caught (t1 := [0]) (t2 := [1]) (e := "K".toList) (.first (.both (t1 := [0]) (t2 := []) .ok .raise) (by decide))
    (.inl ⟨.inr trivial, ?_⟩)
  exact .both (t1 := []) .ok (.both (t1 := [1]) (t2 := []) .ok .ok)

/-- `else` that begins with `while` is lost: `try: a`, `except E: b`, `else: while c: d`. -/
theorem C70_else_counterexample :
    let p := seq [.try_ (.simple 0) .nil (exceptE [.simple 1]) (seq [.loop 2 (seq [.simple 3]) .nil]) .nil]
    RunBody quiet p [0, 2] .normal ∧
      ∀ path, (moduleGraph p).IsPath path → ¬ [0, 2] <+: (moduleGraph p).along path := by
  refine ⟨?_, no_path (module_sane _) (by decide +kernel)⟩
  refine .both (t1 := [0, 2]) (t2 := []) (.both (t1 := [0, 2]) (t2 := []) ?_ (by decide) .ok) .ok
  refine .good (t1 := [0]) (t2 := [2]) (.both (t1 := [0]) (t2 := []) .ok .ok) (.both (t1 := [2]) (t2 := []) ?_ .ok)
  exact .done (.both (t1 := [2]) (t2 := []) .ok .ok)

/-- A clause that begins with `while` is lost: `try: a`, `except E: while c: d`. -/
theorem C70_clause_counterexample :
    let p := seq [.try_ (.simple 0) .nil (exceptE [.loop 2 (seq [.simple 3]) .nil]) .nil .nil]
    RunBody raising p [0, 2] .normal ∧
      ∀ path, (moduleGraph p).IsPath path → ¬ [0, 2] <+: (moduleGraph p).along path := by
  refine ⟨?_, no_path (module_sane _) (by decide +kernel)⟩
  refine .both (t1 := [0, 2]) (t2 := []) (.both (t1 := [0, 2]) (t2 := []) ?_ (by decide) .ok) .ok
  refine .caught (t1 := [0]) (t2 := [2]) (e := "E".toList) (.first (.raise ⟨rfl, rfl⟩) (by decide)) (.inl ⟨.inr List.mem_cons_self, ?_⟩)
  exact .both (t1 := []) (t2 := [2]) .ok (.both (t1 := [2]) (t2 := []) (.done (.both (t1 := [2]) (t2 := []) .ok .ok)) .ok)

/-- In a class, nothing lies on a path. -/
theorem C70_class_counterexample :
    let p := seq [.simple 0]
    RunBody quiet p [0] .normal ∧ ∀ path, (classGraph p).IsPath path → ¬ [0] <+: (classGraph p).along path :=
  ⟨.both (t1 := [0]) (t2 := []) .ok .ok, no_path (class_sane _) (by decide +kernel)⟩

/-- What is executed in a loop with `continue`, twice, lies on a path. -/
example :
    let p := seq [.each 0 1 (seq [.cond 2 (seq [.jump .cont 3]) .nil, .simple 4]) .nil]
    ∃ path, (moduleGraph p).IsPath path ∧ (moduleGraph p).along path = [0, 1, 2, 3, 1, 2, 4, 1] ∧
      path.getLast? = some Graph.end_ := by
  intro p
  have hr : RunBody raising p [0, 1, 2, 3, 1, 2, 4, 1] .normal := by
    refine .both (t1 := [0, 1, 2, 3, 1, 2, 4, 1]) (t2 := []) (.both (t1 := [0]) .ok ?_) .ok
    refine .next (t1 := [1]) (t2 := [2, 3]) (o := .cont) .ok ?_ (.inr rfl) ?_
    · exact .first (.both (t1 := [2]) (t2 := [3]) .ok (.left (.first (.both (t1 := [3]) (t2 := []) .ok .cont) (by decide))))
        (by decide)
    · refine .next (t1 := [1]) (t2 := [2, 4]) (o := .normal) .ok ?_ (.inl rfl) (.done (.both (t1 := [1]) (t2 := []) .ok .ok))
      exact .both (t1 := [2]) (t2 := [4]) (.both (t1 := [2]) (t2 := []) .ok (.right .ok)) (.both (t1 := [4]) (t2 := []) .ok .ok)
  obtain ⟨path, h1, -, h3⟩ := C70_noTry_partial raising p (by decide) (.inl rfl) _ _ hr
  exact ⟨path, h1, (h3 rfl).2, (h3 rfl).1⟩

/-! ### C71 -/

/-- **C71**, for modules: what lies on a path may be executed. Missing: programs with `try`, for which this is false. -/
theorem C71_module_partial (W : World) (p : Body) (hp : p.noTry = true) (hf : W.asks = true ∨ p.noFor = true)
    (path : List Nat) (h : (moduleGraph p).IsPath path) : RunBody W p ((moduleGraph p).along path) .cut := by
  obtain ⟨ψ, g⟩ := module_good W p
  exact end_prec g ⟨hp, hf⟩ rfl (body_stops W p) (by show 1 < 2; omega) (by show 1 ≠ 0; omega) rfl rfl
    (fun j t h => by cases h) h

/-- **C71**, for functions. -/
theorem C71_function_partial (W : World) (args : Nat) (p : Body) (hp : p.noTry = true) (hf : W.asks = true ∨ p.noFor = true)
    (path : List Nat) (h : (functionGraph args p).IsPath path) :
    ∃ tr, args :: tr = (functionGraph args p).along path ∧ RunBody W p tr .cut := by
  obtain ⟨ψ, g, hs, hl⟩ := function_good W args p
  have := end_prec g ⟨hp, hf⟩ rfl (Seq.stops Leaf.stops (Seq.stops Skip.stops (body_stops W p))) (by show 1 < 2; omega)
    (by show 1 ≠ 0; omega) rfl rfl (fun j t h => function_bd h) h
  generalize ht : (functionGraph args p).along path = t at *
  rw [show (Graph.linkOrMerge _ _ _).along path = t from ht] at this
  cases this with
  | both h1 h2 =>
    cases h1
    cases h2 with
    | both h2 h3 => cases h2; exact ⟨_, rfl, h3⟩
    | first h2 _ => cases h2; exact ⟨_, rfl, body_cuts W p⟩
  | first h1 _ =>
    cases h1 with
    | cut =>
      exfalso
      cases path with
      | nil => cases h.1
      | cons b path =>
        have hb : b = 0 := by have := h.1; rw [hs] at this; exact Option.some.inj this
        subst hb
        have : (functionGraph args p).locs 0 ++ path.flatMap (functionGraph args p).locs = [] := ht
        exact hl (List.append_eq_nil_iff.1 this).1
    | after => exact ⟨[], rfl, body_cuts W p⟩

/-- Runs have at most so many locations. -/
def Short (n : Nat) (R : Beh) : Prop := ∀ t o, R t o → t.length ≤ n

theorem Short.leaf {W l} : Short 1 (Leaf W l) := fun t o h => by cases h <;> simp
theorem Short.skip : Short 0 Skip := fun t o h => by cases h <;> simp
theorem Short.jump {j} : Short 0 (JumpRun j) := fun t o h => by cases h <;> simp
theorem Short.seq {a b A B} (ha : Short a A) (hb : Short b B) : Short (a + b) (Seq A B) := fun t o h => by
  cases h with
  | both h1 h2 => rw [List.length_append]; have := ha _ _ h1; have := hb _ _ h2; omega
  | first h1 _ => have := ha _ _ h1; omega

/-- **C71** does not hold with `try`: in `try: a`, `except E: raise E`, an edge leads from the clause to itself. -/
theorem C71_try_counterexample :
    let p := seq [.try_ (.simple 0) .nil (exceptE [.jump (.raise (some "E".toList)) 1]) .nil .nil]
    (∃ path, (moduleGraph p).IsPath path ∧ (moduleGraph p).along path = [0, 1, 1]) ∧ ∀ W o, ¬ RunBody W p [0, 1, 1] o := by
  refine ⟨⟨[0, 5, 5], ⟨by decide +kernel, ⟨by decide +kernel, by decide +kernel, trivial⟩⟩, by decide +kernel⟩, fun W o h => ?_⟩
  have hb : Short 1 (Seq (Leaf W 0) Skip) := Short.seq .leaf .skip
  have hh : ∀ e, Short 1 (RunHandlers W (exceptE [.jump (.raise (some "E".toList)) 1]) e) := by
    rintro e t o (⟨-, h⟩ | ⟨-, h⟩)
    · have : Short (0 + (1 + 0 + 0)) _ := Short.seq Short.skip 
        (Short.seq (Short.seq (Short.leaf (W := W) (l := 1)) (Short.jump (j := .raise (some "E".toList)))) Short.skip)
      exact this _ _ h
    · rw [h.1]; simp
  have ht : Short 2 (TryRun (Seq (Leaf W 0) Skip) (RunHandlers W (exceptE [.jump (.raise (some "E".toList)) 1])) Skip) := by
    intro t o h
    cases h with
    | good h1 h2 => rw [List.length_append]; have := hb _ _ h1; have := Short.skip _ _ h2; omega
    | caught h1 h2 => rw [List.length_append]; have := hb _ _ h1; have := hh _ _ _ h2; omega
    | leave h1 _ _ => have := hb _ _ h1; omega
  have hf : Short 2 (FinallyRun (TryRun (Seq (Leaf W 0) Skip) (RunHandlers W (exceptE [.jump (.raise (some "E".toList)) 1])) Skip)
      Skip) := by
    intro t o h
    cases h with
    | both h1 _ h2 => rw [List.length_append]; have := ht _ _ h1; have := Short.skip _ _ h2; omega
    | leave h1 _ h2 _ => rw [List.length_append]; have := ht _ _ h1; have := Short.skip _ _ h2; omega
    | cut h1 => exact ht _ _ h1
  have := Short.seq hf Short.skip _ _ h
  simp at this

/-- **C71** with **C70**: without `try`, the locations on paths are those that may be executed. -/
theorem C71_locations_partial (W : World) (p : Body) (hp : p.noTry = true) (hf : W.asks = true ∨ p.noFor = true) (l : Nat) :
    (∃ path, (moduleGraph p).IsPath path ∧ l ∈ (moduleGraph p).along path) ↔ ∃ tr o, RunBody W p tr o ∧ l ∈ tr := by
  constructor
  · rintro ⟨path, h1, h2⟩
    exact ⟨_, _, C71_module_partial W p hp hf path h1, h2⟩
  · rintro ⟨tr, o, h1, h2⟩
    obtain ⟨path, h3, h4, -⟩ := C70_noTry_partial W p hp hf tr o h1
    exact ⟨path, h3, h4.subset h2⟩

/-- What follows `break` is never executed. -/
example :
    let p := seq [.loop 0 (seq [.jump .brk 1, .simple 2]) .nil]
    ∀ tr o, RunBody raising p tr o → 2 ∉ tr := by
  intro p tr o h h2
  obtain ⟨path, h3, h4⟩ := (C71_locations_partial raising p (by decide) (.inl rfl) 2).2 ⟨tr, o, h, h2⟩
  obtain ⟨b, hb, hl⟩ := List.mem_flatMap.1 h4
  obtain ⟨pre, post, e⟩ := List.append_of_mem hb
  have hg := ((blocks_spec (module_sane p).tgt (module_sane p).start).2 b).2 (path_gets (e ▸ h3))
  have : ∀ b ∈ (moduleGraph p).blocks, 2 ∉ (moduleGraph p).locs b := by decide +kernel
  exact this b hg hl

/-! ### C72 -/

/-- **C72**: in the graph of a module, the blocks list the locations of the program, each as often as it occurs there.
Missing: programs with `finally`, whose locations are in no block, see below. -/
theorem C72_module_partial (p : Body) (hf : p.noFinally = true) :
    ((List.range (moduleGraph p).count).flatMap (moduleGraph p).locs).Perm p.locations ∧
      ∀ b, (moduleGraph p).count ≤ b → (moduleGraph p).locs b = [] :=
  ⟨module_all p hf, (module_sane p).fresh⟩

/-- **C72**, for functions. -/
theorem C72_function_partial (args : Nat) (p : Body) (hf : p.noFinally = true) :
    ((List.range (functionGraph args p).count).flatMap (functionGraph args p).locs).Perm (args :: p.locations) ∧
      ∀ b, (functionGraph args p).count ≤ b → (functionGraph args p).locs b = [] :=
  ⟨function_all args p hf, (function_sane args p).fresh⟩

/-- **C72**, for classes. -/
theorem C72_class_partial (p : Body) (hf : p.noFinally = true) :
    ((List.range (classGraph p).count).flatMap (classGraph p).locs).Perm p.locations ∧
      ∀ b, (classGraph p).count ≤ b → (classGraph p).locs b = [] :=
  ⟨class_all p hf, (class_sane p).fresh⟩

/-- **C72**: a location is in one block only. -/
theorem C72_unique (p : Body) (hf : p.noFinally = true) (hd : p.locations.Nodup) (l : Nat) (hl : l ∈ p.locations) :
    ∃ b, l ∈ (moduleGraph p).locs b ∧ ∀ b', l ∈ (moduleGraph p).locs b' → b' = b := by
  have hn := (module_all p hf).nodup_iff.2 hd
  obtain ⟨b, hb, h⟩ := List.mem_flatMap.1 ((module_all p hf).mem_iff.2 hl)
  exact ⟨b, h, fun b' h' => all_unique hn (module_sane p) h' h⟩

/-- **C72** does not hold with `finally`: what is in it is in no block. -/
theorem C72_finally_counterexample :
    let p := seq [.try_ (.simple 0) .nil .nil .nil (seq [.simple 1])]
    1 ∈ p.locations ∧ ∀ b, 1 ∉ (moduleGraph p).locs b := by
  intro p
  refine ⟨by decide, fun b h => ?_⟩
  by_cases e : b < (moduleGraph p).count
  · have : ∀ b ∈ List.range (moduleGraph p).count, 1 ∉ (moduleGraph p).locs b := by decide +kernel
    exact this b (List.mem_range.2 e) h
  · rw [(module_sane p).fresh b (by omega)] at h
    cases h

example :
    let p := seq [.simple 0, .cond 1 (seq [.simple 2]) (seq [.simple 3]), .simple 4]
    (List.range (moduleGraph p).count).map (moduleGraph p).locs = [[0, 1], [], [2], [3], [4]] := by decide +kernel

/-! ### C29, for the graphs that are built -/

/-- **C29**: `get_blocks` yields each block that can be reached from the beginning, once, and no other. -/
theorem C29_module (p : Body) : (moduleGraph p).blocks.Nodup ∧
    ∀ b, b ∈ (moduleGraph p).blocks ↔ ∃ path, (moduleGraph p).IsPath path ∧ path.getLast? = some b :=
  blocks_spec (module_sane p).tgt (module_sane p).start

/-- **C29**, for functions. -/
theorem C29_function (args : Nat) (p : Body) : (functionGraph args p).blocks.Nodup ∧
    ∀ b, b ∈ (functionGraph args p).blocks ↔ ∃ path, (functionGraph args p).IsPath path ∧ path.getLast? = some b :=
  blocks_spec (function_sane args p).tgt (function_sane args p).start

/-- **C29**, for classes. -/
theorem C29_class (p : Body) : (classGraph p).blocks.Nodup ∧
    ∀ b, b ∈ (classGraph p).blocks ↔ ∃ path, (classGraph p).IsPath path ∧ path.getLast? = some b :=
  blocks_spec (class_sane p).tgt (class_sane p).start

example : (moduleGraph (seq [.loop 0 (seq [.jump .brk 1, .simple 2]) .nil, .simple 3])).blocks = [2, 4, 3, 1] := by
  decide +kernel

/-! ### C73 -/

/-- What the checker sees of `while`. -/
def whileLoop (t : Nat) (b e : Body) : Loop := ⟨t, (Stmt.loop t b e).locations, none⟩

/-- What the checker sees of `for`. -/
def forLoop (i t : Nat) (b e : Body) : Loop := ⟨t, (Stmt.each i t b e).locations, some i⟩

/-- **C73**: the check for loops with one iteration does not raise. -/
theorem C73_total (p : Body) (args : Nat) (ℓ : Loop) : (∃ r, oneIteration (moduleGraph p) ℓ = .ok r) ∧
    (∃ r, oneIteration (functionGraph args p) ℓ = .ok r) ∧ ∃ r, oneIteration (classGraph p) ℓ = .ok r :=
  ⟨oneIteration_total (module_sane p) ℓ, oneIteration_total (function_sane args p) ℓ, oneIteration_total (class_sane p) ℓ⟩

/-- **C73**, `while` in modules: after the test of a loop that is reported, and then only its body, the test is not evaluated
again. Missing: exceptions in a `try`, loops in classes, for which this is false, see below; and what **C70** excludes. -/
theorem C73_while_partial (W : World) (p : Body) (hm : p.mild = true) (hn : p.noFinally = true)
    (hf : W.asks = true ∨ p.noFor = true) (ht : p.noTry = true ∨ ∀ l x, ¬ W.raises l x) (hd : p.locations.Nodup)
    (t : Nat) (b e : Body) (ho : oneIteration (moduleGraph p) (whileLoop t b e) = .ok true)
    (tr : List Nat) (o : Out) (hr : RunBody W p tr o) (u m v : List Nat) (hb : ∀ x ∈ m, x ∈ b.locations) :
    tr ≠ u ++ t :: (m ++ t :: v) := by
  rintro rfl
  obtain ⟨path, h1, ⟨w, h2⟩, -⟩ := C70_module_partial W p hm hf ht _ _ hr
  refine oneIteration_sound (ℓ := whileLoop t b e) (module_sane p) ((module_all p hn).nodup_iff.2 hd) ho h1 (u := u) (m := m)
    (v := v ++ w) ?_ ?_ (fun x hx => ⟨?_, ?_⟩) (by rw [← h2]; simp [whileLoop])
  · simp [whileLoop, Stmt.locations]
  · simp [whileLoop]
  · simp [whileLoop, Stmt.locations, hb x hx]
  · simp [whileLoop]

/-- **C73**, `for` in modules: it does not ask for another element after executing only its body. -/
theorem C73_for_partial (W : World) (p : Body) (hm : p.mild = true) (hn : p.noFinally = true)
    (hf : W.asks = true) (ht : p.noTry = true ∨ ∀ l x, ¬ W.raises l x) (hd : p.locations.Nodup)
    (i t : Nat) (b e : Body) (hl : Stmt.each i t b e ∈ p.parts) (ho : oneIteration (moduleGraph p) (forLoop i t b e) = .ok true)
    (tr : List Nat) (o : Out) (hr : RunBody W p tr o) (u m v : List Nat) (hb : ∀ x ∈ m, x ∈ b.locations) :
    tr ≠ u ++ t :: (m ++ t :: v) := by
  rintro rfl
  obtain ⟨path, h1, ⟨w, h2⟩, -⟩ := C70_module_partial W p hm (.inl hf) ht _ _ hr
  have hi : i ∉ t :: (b.locations ++ e.locations) := (List.nodup_cons.1 ((body_parts p _ hl).nodup hd)).1
  simp only [List.mem_cons, List.mem_append, not_or] at hi
  refine oneIteration_sound (ℓ := forLoop i t b e) (module_sane p) ((module_all p hn).nodup_iff.2 hd) ho h1 (u := u) (m := m)
    (v := v ++ w) ?_ ?_ (fun x hx => ⟨?_, ?_⟩) (by rw [← h2]; simp [forLoop])
  · simp [forLoop, Stmt.locations]
  · simpa [forLoop] using hi.1
  · simp [forLoop, Stmt.locations, hb x hx]
  · intro h
    exact hi.2.1 (by rw [show i = x from Option.some.inj h]; exact hb x hx)

/-- **C73**, `while` in functions. -/
theorem C73_function_while_partial (W : World) (args : Nat) (p : Body) (hm : p.mild = true) (hn : p.noFinally = true)
    (hf : W.asks = true ∨ p.noFor = true) (ht : p.noTry = true ∨ ∀ l x, ¬ W.raises l x) (hd : (args :: p.locations).Nodup)
    (t : Nat) (b e : Body)
    (ho : oneIteration (functionGraph args p) (whileLoop t b e) = .ok true)
    (tr : List Nat) (o : Out) (hr : RunBody W p tr o) (u m v : List Nat) (hb : ∀ x ∈ m, x ∈ b.locations) :
    tr ≠ u ++ t :: (m ++ t :: v) := by
  rintro rfl
  obtain ⟨path, h1, ⟨w, h2⟩, -⟩ := C70_function_partial W args p hm hf ht _ _ hr
  refine oneIteration_sound (ℓ := whileLoop t b e) (function_sane args p) ((function_all args p hn).nodup_iff.2 hd) ho h1
    (u := args :: u) (m := m) (v := v ++ w) ?_ ?_ (fun x hx => ⟨?_, ?_⟩) (by rw [← h2]; simp [whileLoop])
  · simp [whileLoop, Stmt.locations]
  · simp [whileLoop]
  · simp [whileLoop, Stmt.locations, hb x hx]
  · simp [whileLoop]

/-- **C73**, `for` in functions. -/
theorem C73_function_for_partial (W : World) (args : Nat) (p : Body) (hm : p.mild = true) (hn : p.noFinally = true)
    (hf : W.asks = true) (ht : p.noTry = true ∨ ∀ l x, ¬ W.raises l x) (hd : (args :: p.locations).Nodup)
    (i t : Nat) (b e : Body) (hl : Stmt.each i t b e ∈ p.parts)
    (ho : oneIteration (functionGraph args p) (forLoop i t b e) = .ok true)
    (tr : List Nat) (o : Out) (hr : RunBody W p tr o) (u m v : List Nat) (hb : ∀ x ∈ m, x ∈ b.locations) :
    tr ≠ u ++ t :: (m ++ t :: v) := by
  rintro rfl
  obtain ⟨path, h1, ⟨w, h2⟩, -⟩ := C70_function_partial W args p hm (.inl hf) ht _ _ hr
  have hi : i ∉ t :: (b.locations ++ e.locations) :=
    (List.nodup_cons.1 ((body_parts p _ hl).nodup (List.nodup_cons.1 hd).2)).1
  simp only [List.mem_cons, List.mem_append, not_or] at hi
  refine oneIteration_sound (ℓ := forLoop i t b e) (function_sane args p) ((function_all args p hn).nodup_iff.2 hd) ho h1
    (u := args :: u) (m := m) (v := v ++ w) ?_ ?_ (fun x hx => ⟨?_, ?_⟩) (by rw [← h2]; simp [forLoop])
  · simp [forLoop, Stmt.locations]
  · simpa [forLoop] using hi.1
  · simp [forLoop, Stmt.locations, hb x hx]
  · intro h
    exact hi.2.1 (by rw [show i = x from Option.some.inj h]; exact hb x hx)

/-- **C73** is false of loops in classes: `class A: for i in range(3): print(i)` is reported. -/
theorem C73_class_counterexample :
    let p := seq [.each 0 1 (seq [.simple 2]) .nil]
    oneIteration (classGraph p) (forLoop 0 1 (seq [.simple 2]) .nil) = .ok true ∧
      ∀ W : World, W.asks = true → RunBody W p [0, 1, 2, 1, 2, 1] .normal := by
  refine ⟨by decide +kernel, fun W hW => ?_⟩
  refine .both (t1 := [0, 1, 2, 1, 2, 1]) (t2 := []) (.both (t1 := [0]) .ok ?_) .ok
  refine .next (t1 := [1]) (t2 := [2]) .ok (.both (t1 := [2]) (t2 := []) .ok .ok) (.inl rfl) ?_
  refine .next (t1 := [1]) (t2 := [2]) .ok (.both (t1 := [2]) (t2 := []) .ok .ok) (.inl rfl) ?_
  refine .done (.both (t1 := [1]) (t2 := []) ?_ .ok)
  rw [hW]
  exact .ok

/-- **C73** is false of loops that try until there is no exception: `while True: try: n = int(input()); break`,
`except E: print("bad")` is reported. -/
theorem C73_try_counterexample :
    let b := seq [.try_ (.simple 0) (seq [.jump .brk 1]) (exceptE [.simple 2]) .nil .nil]
    let p := seq [.loop 3 b .nil]
    oneIteration (moduleGraph p) (whileLoop 3 b .nil) = .ok true ∧ RunBody raising p [3, 0, 2, 3, 0, 1] .normal := by
  refine ⟨by decide +kernel, ?_⟩
  refine .both (t1 := [3, 0, 2, 3, 0, 1]) (t2 := []) ?_ .ok
  refine .next (t1 := [3]) (t2 := [0, 2]) .ok (.both (t1 := [0, 2]) (t2 := []) (.both (t1 := [0, 2]) (t2 := []) ?_ (by decide) .ok) .ok)
    (.inl rfl) (.brk (t1 := [3]) (t2 := [0, 1]) .ok (.first (.both (t1 := [0, 1]) (t2 := []) ?_ (by decide) .ok) (by decide)))
  · refine .caught (t1 := [0]) (t2 := [2]) (e := "E".toList) (.first (.raise ⟨rfl, rfl⟩) (by decide)) (.inl ⟨.inr List.mem_cons_self, ?_⟩)
    exact .both (t1 := []) .ok (.both (t1 := [2]) (t2 := []) .ok .ok)
  · refine .leave (.both (t1 := [0]) (t2 := [1]) .ok (.first (.both (t1 := [1]) (t2 := []) .ok .brk) (by decide))) (by decide) ?_
    intro e h; cases h

/-- `for i in a: print(i); break` is reported, `for i in a: if c: break` is not. -/
example : oneIteration (moduleGraph (seq [.each 0 1 (seq [.simple 2, .jump .brk 3]) .nil]))
      (forLoop 0 1 (seq [.simple 2, .jump .brk 3]) .nil) = .ok true ∧
    oneIteration (moduleGraph (seq [.each 0 1 (seq [.cond 2 (seq [.jump .brk 3]) .nil]) .nil]))
      (forLoop 0 1 (seq [.cond 2 (seq [.jump .brk 3]) .nil]) .nil) = .ok false := by
  decide +kernel

/-- `while a: (b; break)` is not reported at the beginning of a module: the block of the test has no predecessors there. -/
example : oneIteration (moduleGraph (seq [.loop 0 (seq [.simple 1, .jump .brk 2]) .nil])) (whileLoop 0 (seq [.simple 1, .jump .brk 2]) .nil) = .ok false ∧
    oneIteration (moduleGraph (seq [.simple 5, .loop 0 (seq [.simple 1, .jump .brk 2]) .nil])) (whileLoop 0 (seq [.simple 1, .jump .brk 2]) .nil) = .ok true := by
  decide +kernel

/-- `c`, `while a: (b; break)`: the test is not evaluated again after the body; in a module as in a function. -/
example (tr : List Nat) (o : Out) (hr : RunBody quiet (seq [.simple 5, .loop 0 (seq [.simple 1, .jump .brk 2]) .nil]) tr o) (u m v : List Nat)
    (hm : ∀ x ∈ m, x ∈ [1, 2]) : tr ≠ u ++ 0 :: (m ++ 0 :: v) :=
  C73_while_partial quiet (seq [.simple 5, .loop 0 (seq [.simple 1, .jump .brk 2]) .nil]) rfl rfl (.inr rfl) (.inl rfl) (by decide) 0
    (seq [.simple 1, .jump .brk 2]) .nil (by decide +kernel) tr o hr u m v hm

example (tr : List Nat) (o : Out) (hr : RunBody quiet (seq [.loop 0 (seq [.simple 1, .jump .brk 2]) .nil]) tr o) (u m v : List Nat)
    (hm : ∀ x ∈ m, x ∈ [1, 2]) : tr ≠ u ++ 0 :: (m ++ 0 :: v) :=
  C73_function_while_partial quiet 9 (seq [.loop 0 (seq [.simple 1, .jump .brk 2]) .nil]) rfl rfl (.inr rfl) (.inl rfl) (by decide) 0
    (seq [.simple 1, .jump .brk 2]) .nil (by decide +kernel) tr o hr u m v hm

/-- `for x in xs: (b; break)` -/
example (tr : List Nat) (o : Out) (hr : RunBody raising (seq [.each 3 0 (seq [.simple 1, .jump .brk 2]) .nil]) tr o) (u m v : List Nat)
    (hm : ∀ x ∈ m, x ∈ [1, 2]) : tr ≠ u ++ 0 :: (m ++ 0 :: v) :=
  C73_for_partial raising (seq [.each 3 0 (seq [.simple 1, .jump .brk 2]) .nil]) rfl rfl rfl (.inl rfl) (by decide) 3 0
    (seq [.simple 1, .jump .brk 2]) .nil (by simp [seq, Body.parts, Stmt.parts]) (by decide +kernel) tr o hr u m v hm

example (tr : List Nat) (o : Out) (hr : RunBody raising (seq [.each 3 0 (seq [.simple 1, .jump .brk 2]) .nil]) tr o) (u m v : List Nat)
    (hm : ∀ x ∈ m, x ∈ [1, 2]) : tr ≠ u ++ 0 :: (m ++ 0 :: v) :=
  C73_function_for_partial raising 9 (seq [.each 3 0 (seq [.simple 1, .jump .brk 2]) .nil]) rfl rfl rfl (.inl rfl) (by decide) 3 0
    (seq [.simple 1, .jump .brk 2]) .nil (by simp [seq, Body.parts, Stmt.parts]) (by decide +kernel) tr o hr u m v hm

end Verif.Flow
